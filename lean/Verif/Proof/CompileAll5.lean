import Verif.Proof.CompileAll4
/-!
Messages, loops, and the whole compiler.
-/
namespace Potion.CompileAll
open Potion Potion.Vm Potion.Peg

theorem externFn_neat (s : Nat) (sg : List Tree) (r : Nat) : Neat s (externFn sg r) := by
  intro h hp hn
  generalize hg : externFn sg r = g at hp
  cases hp with
  | self => subst hg; simp [externFn] at hn
  | sub hm _ => subst hg; simp [externFn] at hm

theorem step_extern {s reg : Nat} {dl} {v : Tree} {st st' : CSt} (hr : reg ≤ 255) (hs : reg < st.stack)
    (h : extern dl v reg st = some st') : Step s 0 st st' := by
  unfold extern at h
  split at h
  · split at h
    · split at h
      · split at h
        · injection h with h; subst h
          refine Step.here (reg := reg) ⟨ext_proto .., fun M hM i => ?_⟩ hs
          exact inv_proto hM (ok_nat (by omega) (by omega)) (externFn_neat s _ reg) (fun x hx => by simp [externFn] at hx) i
        · contradiction
      · contradiction
    · injection h with h; subst h
      exact Step.here (reg := reg) (step1 rfl fun _ => ok_nat (by omega) (by omega)) hs
  · contradiction

theorem step_class {s reg : Nat} {rec : Rec} (G : Good s rec) {v blk : Tree} {st st' : CSt} (hr : reg ≤ 255) (hs : reg < st.stack)
    (hb : Nice s blk) (hf : isNil blk = true ∨ 1 ≤ s) (h : classBody rec v blk reg st = some st') : Step s 0 st st' := by
  unfold classBody at h
  split at h
  · rename_i l b c
    have hs1 : 1 ≤ s := hf.resolve_left (by simp [isNil])
    obtain ⟨st1, h1, rfl⟩ := Option.map_eq_some_iff.1 h
    have hN : Step s (reg + 1) st st1 := by
      refine (step_wide s _ st (reg + 1)).trans (step_block G (.inr hs1) (fun o => ?_) (by omega) h1)
      have := (wide_over o).1
      exact ⟨by omega, by omega, by omega⟩
    refine Step.here (reg := reg) (hN.trans (step2 rfl fun o => ?_)) hs
    exact ⟨ok_nat (by omega) (by omega), ⟨by omega, by omega, by omega⟩⟩
  · split at h
    · injection h with h; subst h
      exact Step.here (reg := reg) (step2 rfl fun _ => ⟨ok_nat (by omega) (by omega), ok_nat (by omega) (by omega)⟩) hs
    · contradiction

theorem nil_nice (s : Nat) : Nice s .nil := .inl rfl

/-- Argument and block of a message: `r` is the last register. -/
theorem step_msgArgs {s breg r : Nat} {rec : Rec} (G : Good s rec) {v blk : Tree} {st st' : CSt} (hb : breg ≤ 255)
    (hv : Nice s v) (hk : Nice s blk) (h1 : st.over = false → 1 ≤ breg) (h : msgArgs rec v blk breg st = some (st', r)) :
    (∃ N, Step s N st st' ∧ (st'.over = false → N ≤ r + 1)) ∧ r ≤ 255 ∧ (st'.over = false → breg ≤ r) := by
  unfold msgArgs at h
  obtain ⟨⟨st1, b1⟩, ha, h⟩ := Option.bind_eq_some_iff.1 h
  have key1 : ∀ st1 b1, argAsmb rec v breg true st = some (st1, b1) →
      Step s (b1 + 1) st st1 ∧ b1 ≤ 255 ∧ (st1.over = false → breg ≤ b1) := fun st1 b1 h => by
    obtain ⟨x1, x2, _, x4⟩ := step_arg G hv hb (fun _ => h1) h
    exact ⟨x1, x2, x4⟩
  have key0 : Step s (breg + 1) st st ∧ breg ≤ 255 ∧ (st.over = false → breg ≤ breg) := ⟨.refl .., hb, fun _ => Nat.le_refl _⟩
  obtain ⟨t1, hb1, hle1⟩ : Step s (b1 + 1) st st1 ∧ b1 ≤ 255 ∧ (st1.over = false → breg ≤ b1) := by
    split at ha
    · exact key1 _ _ ha
    · split at ha
      · exact key1 _ _ ha
      · simp only [Option.some.injEq, Prod.mk.injEq] at ha
        obtain ⟨rfl, rfl⟩ := ha
        exact key0
    · simp only [Option.some.injEq, Prod.mk.injEq] at ha
      obtain ⟨rfl, rfl⟩ := ha
      exact key0
    · split at ha
      · simp only [Option.some.injEq, Prod.mk.injEq] at ha
        obtain ⟨rfl, rfl⟩ := ha
        exact key0
      · contradiction
  have kb : ∀ b sg : Tree, Nice s b → ((block rec ((b1 + 1) % 256) b sg (st1.wide (b1 + 1))).map fun st => (st, (b1 + 1) % 256)) = some (st', r) →
      (∃ N, Step s N st st' ∧ (st'.over = false → N ≤ r + 1)) ∧ r ≤ 255 ∧ (st'.over = false → breg ≤ r) := by
    intro b sg hnb h
    obtain ⟨st2, h2, h⟩ := Option.map_eq_some_iff.1 h
    simp only [Prod.mk.injEq] at h
    obtain ⟨rfl, rfl⟩ := h
    have t2 : Step s ((b1 + 1) % 256 + 1) (st1.wide (b1 + 1)) st2 :=
      step_block G hnb (fun o => ok_nat (by omega) (by omega)) (by omega) h2
    have hw : st2.over = false → b1 + 1 < 256 ∧ breg ≤ b1 := fun o =>
      ⟨(wide_over (t2.ext.over o)).1, hle1 (wide_over (t2.ext.over o)).2⟩
    refine ⟨⟨max (b1 + 1) ((b1 + 1) % 256 + 1), ?_, fun o => by have := hw o; omega⟩, by omega, fun o => by have := hw o; omega⟩
    exact (t1.mono (by omega)).trans ((step_wide ..).trans (t2.mono (by omega)))
  dsimp only at h
  split at h
  · exact kb _ _ hk.kids.2.2.1 h
  · exact kb _ _ hk h
  · simp only [Option.some.injEq, Prod.mk.injEq] at h
    obtain ⟨rfl, rfl⟩ := h
    exact ⟨⟨_, t1, fun _ => Nat.le_refl _⟩, hb1, hle1⟩
  · split at h
    · split at h
      · obtain ⟨x1, x2, _, x4⟩ := step_arg G hv hb1 (fun _ o => Nat.le_trans (h1 (t1.ext.over o)) (hle1 o)) h
        refine ⟨⟨max (b1 + 1) (r + 1), (t1.mono (by omega)).trans (x1.mono (by omega)), fun o => by have := x4 o; omega⟩, x2, fun o => ?_⟩
        have := x4 o
        have := hle1 (x1.ext.over o)
        omega
      · simp only [Option.some.injEq, Prod.mk.injEq] at h
        obtain ⟨rfl, rfl⟩ := h
        exact ⟨⟨_, t1, fun _ => Nat.le_refl _⟩, hb1, hle1⟩
    · contradiction

theorem step_message {s reg breg c : Nat} {rec : Rec} (G : Good s rec) {k : Kind} {x v blk : Tree} {st st' : CSt} (hr : reg ≤ 255)
    (hb : breg ≤ 255) (hs : reg < st.stack) (hrb : st.over = false → reg ≤ breg) (hv : Nice s v) (hk : Nice s blk)
    (hkind : k = .msg ∨ k = .query)
    (h : message rec k x v blk c reg breg st = some st') : Step s 0 st st' := by
  unfold message at h
  generalize ho : (breg + 1) % 256 = oreg at h
  have hol : oreg ≤ 255 := by omega
  rcases hc : (st.wide (breg + 1)).const x with ⟨sc, nc⟩
  have w0 := fun N => (step_wide s N st (breg + 1)).trans (step_const s N (st.wide (breg + 1)) x)
  have hnc := const_lt (st.wide (breg + 1)) x
  have hov : sc.over = false → breg + 1 < 256 ∧ st.over = false := by
    intro o
    have : (st.wide (breg + 1)).const x = (sc, nc) := hc
    have hsc : sc.over = (st.wide (breg + 1)).over := (congrArg (·.1.over) hc).symm
    exact wide_over (hsc ▸ o)
  rw [hc] at h w0 hnc
  dsimp only at h w0 hnc
  -- the receiver
  have t1 : ∀ N, reg + 1 ≤ N → oreg + 1 ≤ N → Step s N sc (if c = 0 then sc.asm .self oreg 0 else sc.asm .move oreg reg) := by
    intro N hN hN'
    split
    · exact step1 rfl fun _ => ok_nat (by omega) (by omega)
    · exact step2 rfl fun _ => ⟨ok_nat (by omega) (by omega), ok_nat (by omega) (by omega)⟩
  generalize (if c = 0 then sc.asm .self oreg 0 else sc.asm .move oreg reg) = s1 at t1 h
  have t2 : ∀ N, reg + 1 ≤ N → oreg + 1 ≤ N → Step s N s1 (s1.asm .loadk reg nc) := fun N hN hN' =>
    stepK (fun _ => ok_nat (by omega) (by omega)) (Nat.lt_of_lt_of_le hnc (t1 N hN hN').ext.values)
  generalize s1.asm .loadk reg nc = s2 at t2 h
  have t3 : ∀ N, reg + 1 ≤ N → oreg + 1 ≤ N → Step s N s2 (sendMsg v blk reg oreg s2) := by
    intro N hN hN'
    unfold sendMsg
    split
    · exact (step_constK _ _ fun _ => ok_nat (by omega) (by omega)).trans
        (step2 rfl fun _ => ⟨ok_nat (by omega) (by omega), ok_nat (by omega) (by omega)⟩)
    · refine step2 (by split <;> rfl) fun _ => ⟨ok_nat (by omega) (by omega), ok_nat (by omega) (by omega)⟩
  generalize sendMsg v blk reg oreg s2 = s3 at t3 h
  have t4 : ∀ N, reg + 1 ≤ N → oreg + 1 ≤ N → Step s N s3 (if k = .query && !isNil v then s3.asm .notjmp reg 0 else s3) := by
    intro N hN hN'
    split
    · exact stepCond (.inr rfl) (fun _ => ok_nat (by omega) (by omega)) (.inl rfl)
    · exact .refl ..
  have hj : k = .query → isNil v = false → s3.len < (if k = .query && !isNil v then s3.asm .notjmp reg 0 else s3).len ∧
      ((if k = .query && !isNil v then s3.asm .notjmp reg 0 else s3).code s3.len).op = .notjmp := by
    intro hk hv
    simp only [hk, hv, decide_true, Bool.not_false, Bool.and_self, if_true]
    exact ⟨by simp [CSt.asm], congrArg Ins.op (asm_at ..)⟩
  generalize hs4 : (if k = .query && !isNil v then s3.asm .notjmp reg 0 else s3) = s4 at t4 h hj
  have T : ∀ N, reg + 1 ≤ N → oreg + 1 ≤ N → Step s N st s4 := fun N hN hN' =>
    (w0 N).trans ((t1 N hN hN').trans ((t2 N hN hN').trans ((t3 N hN hN').trans (t4 N hN hN'))))
  have ho4 : s4.over = false → oreg = breg + 1 ∧ reg ≤ breg := by
    intro o
    have e : Ext sc s4 := ((t1 300 (by omega) (by omega)).trans ((t2 300 (by omega) (by omega)).trans ((t3 300 (by omega) (by omega)).trans (t4 300 (by omega) (by omega))))).ext
    obtain ⟨h1, h2⟩ := hov (e.over o)
    have := hrb h2
    omega
  obtain ⟨⟨s5, r⟩, h5, h⟩ := Option.bind_eq_some_iff.1 h
  obtain ⟨⟨N5, t5, hN5⟩, hr5, hle5⟩ := step_msgArgs G hol hv hk (fun o => by have := ho4 o; omega) h5
  simp only [Option.pure_def, Option.some.injEq] at h
  subst h
  generalize hN : max N5 (max (r + 1) (max (reg + 1) (oreg + 1))) = N
  have hfin : s5.over = false → reg < r ∧ oreg ≤ r := fun o => by
    have := ho4 (t5.ext.over o)
    have := hle5 o
    omega
  have tc : Step s N s5 (s5.asm .call reg r) := stepCall fun o =>
    ⟨ok_nat (by omega) (by omega), by have := hfin o; omega, ok_nat (by omega) (by omega)⟩
  have t6 : Step s N s5 (if k = .msg then s5.asm .call reg r else if isNil v then s5.asm .test reg r
      else (s5.asm .call reg r).patchB s3.len ((s5.len : Int) + 1 - s3.len - 1)) := by
    split
    · exact tc
    · rename_i hkm
      split
      · exact step1 rfl fun _ => ok_nat (by omega) (by omega)
      · rename_i hvn
        have hkq := hkind.resolve_left hkm
        obtain ⟨j1, j2⟩ := hj hkq (by simpa using hvn)
        refine tc.trans (step_patchB (t := s5.len + 1) ?_ (.inr ?_) (Nat.le_refl _) (by omega))
        · have := t5.ext.len; simp only [CSt.asm]; omega
        · rw [(ext_asm ..).op _ (Nat.lt_of_lt_of_le j1 t5.ext.len), t5.ext.op _ j1]; exact j2
  refine Step.reg (((T N (by omega) (by omega)).trans (t5.mono (by omega))).trans t6) fun o => ?_
  have o5 := t6.ext.over o
  have := hfin o5
  have := hN5 o5
  omega

theorem step_varCall {s reg breg : Nat} {rec : Rec} (G : Good s rec) {v blk : Tree} {st st' : CSt} (hr : reg ≤ 255)
    (hb : breg ≤ 255) (hrb : st.over = false → reg ≤ breg) (hv : Nice s v) (hk : Nice s blk)
    (h : varCall rec v blk reg breg st = some st') : Step s 0 st st' := by
  unfold varCall at h
  split at h
  · injection h with h; subst h; exact step_regs ..
  · obtain ⟨⟨s1, r⟩, h1, h⟩ := Option.bind_eq_some_iff.1 h
    dsimp only at h
    have hw : ((st.wide (breg + 1)).asm .self ((breg + 1) % 256 : Nat) 0).over = false → breg + 1 < 256 ∧ reg ≤ breg := fun o => by
      obtain ⟨a, b⟩ := wide_over (st := st) (n := breg + 1) o
      exact ⟨a, hrb b⟩
    obtain ⟨t1, hr1, _, hle1⟩ := step_arg G hv (by omega) (fun _ o => by have := hw o; omega) h1
    have t0 : ∀ N, (breg + 1) % 256 + 1 ≤ N → Step s N st ((st.wide (breg + 1)).asm .self ((breg + 1) % 256 : Nat) 0) := fun N hN =>
      (step_wide ..).trans (step1 rfl fun _ => ok_nat (by omega) (by omega))
    have hf : s1.over = false → breg + 1 ≤ r ∧ reg ≤ breg := fun o => by
      have := hle1 o
      have := hw (t1.ext.over o)
      omega
    split at h
    · simp only [Option.pure_def, Option.some.injEq] at h
      subst h
      generalize hN : max (reg + 1) (max (r + 1) ((breg + 1) % 256 + 1)) = N
      refine Step.reg (((t0 N (by omega)).trans (t1.mono (by omega))).trans (stepCall fun o =>
        ⟨ok_nat (by omega) (by omega), by have := hf o; omega, ok_nat (by omega) (by omega)⟩)) fun o => ?_
      have := hf o
      have := hw (t1.ext.over o)
      omega
    · obtain ⟨s2, h2, h⟩ := Option.bind_eq_some_iff.1 h
      simp only [Option.pure_def, Option.some.injEq] at h
      subst h
      generalize hN : max (reg + 1) (max (r + 1) (max ((r + 1) % 256 + 1) ((breg + 1) % 256 + 1))) = N
      have t2 : Step s N (s1.wide (r + 1)) s2 := step_block G hk (fun o => ok_nat (by omega) (by omega)) (by omega) h2
      have hf2 : s2.over = false → r + 1 < 256 ∧ breg + 1 ≤ r ∧ reg ≤ breg := fun o => by
        obtain ⟨a, b⟩ := wide_over (t2.ext.over o)
        exact ⟨a, hf b⟩
      refine Step.reg ((((t0 N (by omega)).trans (t1.mono (by omega))).trans ((step_wide ..).trans t2)).trans (stepCall fun o =>
        ⟨ok_nat (by omega) (by omega), by have := hf2 o; omega, ok_nat (by omega) (by omega)⟩)) fun o => ?_
      have := hf2 o
      omega

theorem step_plain {s reg breg c : Nat} {rec : Rec} (G : Good s rec) {k : Kind} {x v blk : Tree} {st st' : CSt} (hr : reg ≤ 255)
    (hb : breg ≤ 255) (hs : reg < st.stack) (hrb : st.over = false → reg ≤ breg) (hv : Nice s v) (hk : Nice s blk)
    (hkind : k = .msg ∨ k = .query)
    (h : plainMsg rec k x v blk c reg breg st = some st') : Step s 0 st st' := by
  unfold plainMsg at h
  split at h
  · have l1 := step_look s 0 st x
    have l2 := @look_place st x
    split at h
    · rename_i st1 up n hl
      rw [hl] at l1 l2
      have hp := l2 rfl
      have t : Step s 0 st1 (st1.asm (getOp up) reg n) :=
        Step.here (reg := reg) (stepGet (fun _ => ok_nat (by omega) (by omega)) hp) (Nat.lt_of_lt_of_le hs l1.ext.stack)
      exact (l1.trans t).trans (step_varCall G hr hb (fun o => hrb ((l1.trans t).ext.over o)) hv hk h)
    · rename_i st1 hl
      rw [hl] at l1
      split at h
      · exact l1.trans (step_varCall G hr hb (fun o => hrb (l1.ext.over o)) hv hk h)
      · exact l1.trans (step_message G hr hb (Nat.lt_of_lt_of_le hs l1.ext.stack) (fun o => hrb (l1.ext.over o)) hv hk hkind h)
  · split at h
    · exact step_varCall G hr hb hrb hv hk h
    · exact step_message G hr hb hs hrb hv hk hkind h

/-! ### Conditions and loops -/

theorem guardNil {b : Bool} {f : Unit → Option CSt} {x : CSt} (h : (if b = true then (none >>= f) else f ()) = some x) : f () = some x := by
  cases b
  · simpa using h
  · simp at h
theorem ite_some {p : Prop} [Decidable p] {a b : Option CSt} {x : CSt} (h : (if p then a else b) = some x) :
    p ∧ a = some x ∨ ¬ p ∧ b = some x := by
  by_cases hp : p
  · rw [if_pos hp] at h; exact .inl ⟨hp, h⟩
  · rw [if_neg hp] at h; exact .inr ⟨hp, h⟩

theorem step_if {s reg : Nat} {rec : Rec} (G : Good s rec) {v blk : Tree} {st st' : CSt} (hr : reg ≤ 255)
    (hv : Nice s v) (hk : Nice s blk) (h : ifMsg rec v blk reg st = some st') : Step s 0 st st' := by
  unfold ifMsg at h
  replace h := guardNil h
  obtain ⟨⟨s1, r⟩, h1, h⟩ := Option.bind_eq_some_iff.1 h
  dsimp only at h
  replace h := guardNil h
  obtain ⟨s2, h2, h⟩ := Option.bind_eq_some_iff.1 h
  simp only [Option.pure_def, Option.some.injEq] at h
  subst h
  obtain ⟨t1, _, hreq, _⟩ := step_arg G hv (by omega) (fun hh => by simp at hh) h1
  have hreq := hreq rfl
  subst hreq
  have t2 : Step s ((reg + 1) % 256 + 1) s1 (s1.asm .notjmp ((reg + 1) % 256 : Nat) 0) :=
    stepCond (.inr rfl) (fun _ => ok_nat (by omega) (by omega)) (.inl rfl)
  have t3 := (G _ _ _ _ _ h2 hr hk).1
  have hl := t3.ext.len
  have hl' : (s1.asm .notjmp ((reg + 1) % 256 : Nat) 0).len = s1.len + 1 := rfl
  refine Step.reg ((((step_wide ..).trans t1).trans (t2.trans (t3.mono (by omega)))).trans
    (step_patchB (t := s2.len) (by omega) (.inr ?_) (Nat.le_refl _) (by omega))) fun _ => by omega
  rw [t3.ext.op _ (by omega), asm_at]

theorem step_elsif {s reg : Nat} {rec : Rec} (G : Good s rec) {v blk : Tree} {st st' : CSt} (hr : reg ≤ 255)
    (hv : Nice s v) (hk : Nice s blk) (h : elsifMsg rec v blk reg st = some st') : Step s 0 st st' := by
  unfold elsifMsg at h
  replace h := guardNil h
  obtain ⟨⟨s1, r⟩, h1, h⟩ := Option.bind_eq_some_iff.1 h
  dsimp only at h
  replace h := guardNil h
  obtain ⟨s2, h2, h⟩ := Option.bind_eq_some_iff.1 h
  simp only [Option.pure_def, Option.some.injEq] at h
  subst h
  obtain ⟨t1, _, hreq, _⟩ := step_arg G hv (by omega) (fun hh => by simp at hh) h1
  have hreq := hreq rfl
  subst hreq
  have t0 : Step s ((reg + 1) % 256 + 1) st ((st.wide (reg + 1)).asm .testjmp ((reg + 1) % 256 : Nat) 0) :=
    (step_wide ..).trans (stepCond (.inl rfl) (fun _ => ok_nat (by omega) (by omega)) (.inl rfl))
  have t2 : Step s ((reg + 1) % 256 + 1) s1 (s1.asm .notjmp ((reg + 1) % 256 : Nat) 0) :=
    stepCond (.inr rfl) (fun _ => ok_nat (by omega) (by omega)) (.inl rfl)
  have t3 := (G _ _ _ _ _ h2 hr hk).1
  have hl := t3.ext.len
  have hl' : (s1.asm .notjmp ((reg + 1) % 256 : Nat) 0).len = s1.len + 1 := rfl
  have hl0 : ((st.wide (reg + 1)).asm .testjmp ((reg + 1) % 256 : Nat) 0).len = st.len + 1 := rfl
  have hl1 := t1.ext.len
  have o1 : (s2.code st.len).op = .testjmp := by
    rw [t3.ext.op _ (by omega), t2.ext.op _ (by omega), t1.ext.op _ (by omega)]
    exact congrArg Ins.op (asm_at (st.wide (reg + 1)) ..)
  have o2 : (s2.code s1.len).op = .notjmp := by
    rw [t3.ext.op _ (by omega), asm_at]
  refine Step.reg (((t0.trans t1).trans (t2.trans (t3.mono (by omega)))).trans
    ((step_patchB (t := s2.len) (by omega) (.inl o1) (Nat.le_refl _) (by omega)).trans
      (step_patchB (t := s2.len) (by show _ < s2.len; omega) (.inr ?_) (Nat.le_refl _) ?_))) fun _ => by omega
  · rw [patchB_op]; exact o2
  · show (s2.len : Int) - _ - 1 = _; rfl

theorem step_else {s reg : Nat} {rec : Rec} (G : Good s rec) {blk : Tree} {st st' : CSt} (hr : reg ≤ 255)
    (hk : Nice s blk) (h : elseMsg rec blk reg st = some st') : Step s 0 st st' := by
  unfold elseMsg at h
  dsimp only at h
  replace h := guardNil h
  obtain ⟨s2, h2, h⟩ := Option.bind_eq_some_iff.1 h
  simp only [Option.pure_def, Option.some.injEq] at h
  subst h
  have t2 : Step s ((reg + 1) % 256 + 1) st ((st.wide (reg + 1)).asm .testjmp ((reg + 1) % 256 : Nat) 0) :=
    (step_wide ..).trans (stepCond (.inl rfl) (fun _ => ok_nat (by omega) (by omega)) (.inl rfl))
  have t3 := (G _ _ _ _ _ h2 hr hk).1
  have hl := t3.ext.len
  have hl' : ((st.wide (reg + 1)).asm .testjmp ((reg + 1) % 256 : Nat) 0).len = st.len + 1 := rfl
  refine Step.reg ((t2.trans (t3.mono (by omega))).trans
    (step_patchB (t := s2.len) (by omega) (.inl ?_) (Nat.le_refl _) (by omega))) fun _ => by omega
  rw [t3.ext.op _ (by omega)]
  exact congrArg Ins.op (asm_at (st.wide (reg + 1)) ..)

theorem ext_patchAll (t : Int) : ∀ (l : List Nat) (st : CSt), Ext st (st.patchAll t l)
  | [], st => .refl st
  | j :: l, st => (ext_patchA st j (t - j - 1)).trans (ext_patchAll t l _)

theorem ext_loop (st : CSt) (l) : Ext st { st with loop := l } :=
  ⟨Nat.le_refl _, fun _ _ => rfl, Nat.le_refl _, List.prefix_refl _, List.prefix_refl _, Nat.le_refl _, List.prefix_refl _, .refl _, id⟩

theorem inv_loop {s M : Nat} {st : CSt} {l} (i : Inv s M no st)
    (h : ∀ p, l = some p → ∀ k ∈ p.1 ++ p.2, k < st.len ∧ (st.code k).op = .jmp) : Inv s M no { st with loop := l } :=
  ⟨fun f k hk hx => (ext_loop st l).le (Nat.le_refl M) |>.ins rfl (i.code f k hk hx), i.link, h, i.nest⟩

theorem step_loopBody {s reg jmp2 : Nat} {jmp1 : Option Nat} {rec : Rec} (G : Good s rec) {blk : Tree} {st st' : CSt} (hr : reg ≤ 255)
    (hk : Nice s blk) (h2 : jmp2 ≤ st.len) (h1 : ∀ j, jmp1 = some j → j < st.len ∧ (st.code j).op = .notjmp)
    (h : loopBody rec blk reg jmp2 jmp1 st = some st') : Step s 0 st st' := by
  unfold loopBody at h
  replace h := guardNil h
  obtain ⟨sb, hb, h⟩ := Option.bind_eq_some_iff.1 h
  simp only [Option.pure_def, Option.some.injEq] at h
  have t1 := (G _ _ _ _ _ hb hr hk).1
  have l1 : st.len ≤ sb.len := t1.ext.len
  have t2 : Step s 0 sb (sb.asm .jmp ((jmp2 : Int) - sb.len - 1) 0) := stepJmp (by omega) rfl
  have e12 : Ext st (sb.asm .jmp ((jmp2 : Int) - sb.len - 1) 0) := ((ext_loop st _).trans t1.ext).trans t2.ext
  have hlp : (sb.asm .jmp ((jmp2 : Int) - sb.len - 1) 0).loop = sb.loop := rfl
  generalize hs2 : sb.asm .jmp ((jmp2 : Int) - sb.len - 1) 0 = s2 at *
  have t3 : Step s 0 s2 (s2.exit jmp1) := by
    cases jmp1 with
    | some j =>
      obtain ⟨a, b⟩ := h1 j rfl
      exact step_patchB (t := s2.len) (Nat.lt_of_lt_of_le a e12.len) (.inr (by rw [e12.op _ a]; exact b)) (Nat.le_refl _) rfl
    | none => exact .refl ..
  have hp3 : (s2.exit jmp1).loop = sb.loop ∧ (s2.exit jmp1).len = s2.len := by
    cases jmp1 <;> exact ⟨hlp, rfl⟩
  generalize s2.exit jmp1 = s3 at *
  have E : Ext st ((s3.patchAll s3.len (s3.loop.getD ([], [])).1).patchAll jmp2 (s3.loop.getD ([], [])).2) :=
    (e12.trans t3.ext).trans ((ext_patchAll ..).trans (ext_patchAll ..))
  subst h
  refine ⟨E.trans (ext_loop ..), fun M hM i => ?_⟩
  have i1 := t3.inv M hM (t2.inv M hM (t1.inv M hM (inv_loop i (l := some ([], [])) fun p hp k hk => by
    injection hp with hp; subst hp; simp at hk)))
  have hj : ∀ k ∈ (s3.loop.getD ([], [])).1 ++ (s3.loop.getD ([], [])).2, k < s3.len ∧ (s3.code k).op = .jmp := by
    intro k hk
    cases hl : s3.loop with
    | none => rw [hl] at hk; simp at hk
    | some p => rw [hl] at hk; exact i1.loop p hl k hk
  obtain ⟨q1, q2, q3, q4⟩ := patchAll_same s3.len (s3.loop.getD ([], [])).1 s3
  have i2 := (step_patchAll (s := s) (N := 0) (t := s3.len) (s3.loop.getD ([], [])).1 s3 (fun k hk => hj k (by simp [hk]))
    (Nat.le_refl _)).inv M hM i1
  have hlen3 := t3.ext.len
  have hlen12 := e12.len
  have i3 := (step_patchAll (s := s) (N := 0) (t := jmp2) (s3.loop.getD ([], [])).2 (s3.patchAll s3.len (s3.loop.getD ([], [])).1)
    (fun k hk => ⟨by rw [q1]; exact (hj k (by simp [hk])).1, by rw [q4]; exact (hj k (by simp [hk])).2⟩) (by rw [q1]; omega)).inv M hM i2
  refine inv_loop i3 fun p hp k hk => ?_
  obtain ⟨a, b⟩ := i.loop p hp k hk
  exact ⟨Nat.lt_of_lt_of_le a E.len, by rw [E.op _ a]; exact b⟩

theorem step_while {s reg : Nat} {rec : Rec} (G : Good s rec) {v blk : Tree} {st st' : CSt} (hr : reg ≤ 255)
    (hv : Nice s v) (hk : Nice s blk) (h : whileMsg rec v blk reg st = some st') : Step s 0 st st' := by
  unfold whileMsg at h
  obtain ⟨⟨s1, r⟩, h1, h⟩ := Option.bind_eq_some_iff.1 h
  dsimp only at h
  obtain ⟨s2, h2, h⟩ := Option.bind_eq_some_iff.1 h
  simp only [Option.pure_def, Option.some.injEq] at h
  subst h
  obtain ⟨t1, _, hreq, _⟩ := step_arg G hv (by omega) (fun hh => by simp at hh) h1
  have hreq := hreq rfl
  subst hreq
  have t2 : Step s ((reg + 1) % 256 + 1) s1 (s1.asm .notjmp ((reg + 1) % 256 : Nat) 0) :=
    stepCond (.inr rfl) (fun _ => ok_nat (by omega) (by omega)) (.inl rfl)
  have hl : st.len ≤ s1.len := t1.ext.len
  have t3 := step_loopBody G hr hk (by simp only [CSt.asm]; omega) (fun j hj => by
    injection hj with hj; subst hj
    exact ⟨by simp [CSt.asm], congrArg Ins.op (asm_at ..)⟩) h2
  exact Step.reg ((((step_wide ..).trans t1).trans t2).trans (t3.mono (by omega))) fun _ => by omega

theorem step_jump {s : Nat} {b : Bool} {st st' : CSt} (h : jumpMsg b st = some st') : Step s 0 st st' := by
  unfold jumpMsg at h
  split at h
  · contradiction
  · rename_i bs cs hl
    generalize hq : (if b then (bs ++ [st.len], cs) else (bs, cs ++ [st.len])) = q at h
    rcases ite_some h with ⟨_, h⟩ | ⟨_, h⟩
    · simp only [Option.some.injEq] at h
      subst h
      have t : Step s 0 st (st.asm .jmp 0 0) := stepJmp (t := st.len + 1) (Nat.le_refl _) (by omega)
      refine ⟨t.ext.trans (ext_loop ..), fun M hM i => inv_loop (t.inv M hM i) fun p hp k hk => ?_⟩
      injection hp with hp
      subst hp
      have hk' : k ∈ bs ++ cs ∨ k = st.len := by
        subst hq
        split at hk <;> simp only [List.mem_append, List.mem_singleton] at hk ⊢ <;> grind
      rcases hk' with hk' | rfl
      · obtain ⟨x, y⟩ := i.loop _ hl k hk'
        exact ⟨Nat.lt_of_lt_of_le x t.ext.len, by rw [t.ext.op _ x]; exact y⟩
      · exact ⟨by simp [CSt.asm], congrArg Ins.op (asm_at ..)⟩
    · contradiction

theorem step_msg {s reg c : Nat} {dl} {rec : Rec} (G : Good s rec) {k : Kind} {x v blk : Tree} {st st' : CSt} (hr : reg ≤ 255)
    (hs : reg < st.stack) (hn : Nice s (.node k x v blk)) (hkind : k = .msg ∨ k = .query)
    (h : msgNode dl rec k x v blk c reg st = some st') : Step s 0 st st' := by
  obtain ⟨hf, _, hv, hk⟩ := hn.kids
  have plain : plainMsg rec k x v blk c reg reg st = some st' → Step s 0 st st' := fun h =>
    step_plain G hr hr hs (fun _ => Nat.le_refl _) hv hk hkind h
  unfold msgNode at h
  split at h
  · rename_i w
    rcases ite_some h with ⟨_, h⟩ | ⟨_, h⟩
    · exact step_if G hr hv hk h
    rcases ite_some h with ⟨_, h⟩ | ⟨_, h⟩
    · exact step_elsif G hr hv hk h
    rcases ite_some h with ⟨_, h⟩ | ⟨_, h⟩
    · exact step_else G hr hk h
    rcases ite_some h with ⟨hw, h⟩ | ⟨_, h⟩
    · obtain ⟨s1, h1, rfl⟩ := Option.map_eq_some_iff.1 h
      have t0 : Step s 0 st (if c = 0 then st.asm .self reg 0 else st) := by
        split
        · exact Step.here (reg := reg) (step1 rfl fun _ => ok_nat (by omega) (by omega)) hs
        · exact .refl ..
      refine (t0.trans (step_class G hr (Nat.lt_of_lt_of_le hs t0.ext.stack) hk ?_ h1)).trans (step_regs ..)
      rcases hf with hf | hf
      · subst hw
        left
        simpa [fine] using hf
      · exact .inr hf
    rcases ite_some h with ⟨_, h⟩ | ⟨_, h⟩
    · obtain ⟨s1, h1, rfl⟩ := Option.map_eq_some_iff.1 h
      exact (step_extern hr hs h1).trans (step_regs ..)
    rcases ite_some h with ⟨_, h⟩ | ⟨_, h⟩
    · exact step_while G hr hv hk h
    rcases ite_some h with ⟨_, h⟩ | ⟨_, h⟩
    · unfold loopMsg at h
      split at h
      · obtain ⟨s1, h1, rfl⟩ := Option.map_eq_some_iff.1 h
        exact ((step_wide ..).trans (step_loopBody G hr hk (Nat.le_refl _) (fun j hj => by simp at hj) h1)).trans (step_regs ..)
      · exact (step_wide ..).trans (step_plain G hr (by omega) hs (fun o => by have := (wide_over o).1; omega) hv hk (.inl rfl) h)
    rcases ite_some h with ⟨_, h⟩ | ⟨_, h⟩
    · obtain ⟨⟨s1, r⟩, h1, h⟩ := Option.bind_eq_some_iff.1 h
      simp only [Option.pure_def, Option.some.injEq] at h
      subst h
      obtain ⟨t1, _, hreq, _⟩ := step_arg G hv hr (fun hh => by simp at hh) h1
      have hreq := hreq rfl
      subst hreq
      exact Step.reg (t1.trans (step1 rfl fun _ => ok_nat (by omega) (by omega))) fun _ => by omega
    rcases ite_some h with ⟨_, h⟩ | ⟨_, h⟩
    · obtain ⟨s1, h1, rfl⟩ := Option.map_eq_some_iff.1 h
      exact (step_jump h1).trans (step_regs ..)
    rcases ite_some h with ⟨_, h⟩ | ⟨_, h⟩
    · obtain ⟨s1, h1, rfl⟩ := Option.map_eq_some_iff.1 h
      exact (step_jump h1).trans (step_regs ..)
    rcases ite_some h with ⟨_, h⟩ | ⟨_, h⟩
    · injection h with h; subst h
      exact Step.reg (N := reg + 1) (step1 rfl fun _ => ok_nat (by omega) (by omega)) fun _ => by omega
    · exact plain h
  · exact plain h

theorem binOp_two {k : Kind} {op : Op} (h : binOp k = some op) : two op = true := by
  cases k <;> simp only [binOp, Option.some.injEq, reduceCtorEq] at h <;> subst h <;> rfl

theorem step_bin {s reg : Nat} {rec : Rec} (G : Good s rec) {k : Kind} {a b : Tree} {op : Op} {st st' : CSt} (hr : reg ≤ 255)
    (hs : reg < st.stack) (ha : Nice s a) (hb : Nice s b) (hop : binOp k = some op) (hf : emptyParens b = false ∨ 1 ≤ s)
    (h : (do
      let st ← pnArg rec a reg st
      let st ← pnArg rec b ((reg + 1) % 256) (st.wide (reg + 1))
      return st.asm op reg (reg + 1) : Option CSt) = some st') : Step s 0 st st' := by
  obtain ⟨s1, h1, h⟩ := Option.bind_eq_some_iff.1 h
  obtain ⟨s2, h2, h⟩ := Option.bind_eq_some_iff.1 h
  simp only [Option.pure_def, Option.some.injEq] at h
  subst h
  have t1 := (step_pnArg G ha hr h1).1
  obtain ⟨t2, h2'⟩ := step_pnArg G hb (by omega) h2
  have T : Step s 0 st s2 := (t1.trans (step_wide ..)).trans t2
  rcases hf with hf | hf
  · refine Step.done (N := reg + 2) ((T.mono (by omega)).trans (step2 (binOp_two hop) fun _ =>
      ⟨ok_of (by omega) (by omega) (by omega), ok_of (by omega) (by omega) (by omega)⟩)) fun o => ?_
    have := h2' hf
    have w := (wide_over (t2.ext.over o)).1
    have : (s2.asm op reg (reg + 1)).stack = s2.stack := rfl
    omega
  · exact Step.here (reg := reg) ((T.mono (by omega)).trans (step2 (binOp_two hop) fun _ =>
      ⟨ok_of (by omega) (by omega) (by omega), ⟨by omega, by omega, by omega⟩⟩)) hs

theorem step_node {s reg c : Nat} {dl} {rec : Rec} (G : Good s rec) {k : Kind} {x y z : Tree} {st st' : CSt} (hr : reg ≤ 255)
    (hs : reg < st.stack) (hn : Nice s (.node k x y z)) (h : node dl rec k x y z c reg st = some st') : Step s 0 st st' := by
  obtain ⟨hf, hx, hy, hz⟩ := hn.kids
  have hbin : ∀ op, binOp k = some op → (do
      let st ← pnArg rec x reg st
      let st ← pnArg rec y ((reg + 1) % 256) (st.wide (reg + 1))
      return st.asm op reg (reg + 1) : Option CSt) = some st' → Step s 0 st st' := by
    intro op hop h
    refine step_bin G hr hs hx hy hop ?_ h
    rcases hf with hf | hf
    · left
      cases k <;> simp only [binOp, reduceCtorEq, Option.some.injEq] at hop <;> simpa [fine, binOp] using hf
    · exact .inr hf
  have hjmp : ∀ op, op = .notjmp ∨ op = .testjmp → (do
      let st ← pnArg rec x reg st
      let jmp := st.len
      let st ← pnArg rec y reg (st.asm op reg 0)
      return st.patchB jmp ((st.len : Int) - jmp - 1) : Option CSt) = some st' → Step s 0 st st' := by
    intro op hop h
    obtain ⟨s1, h1, h⟩ := Option.bind_eq_some_iff.1 h
    obtain ⟨s2, h2, h⟩ := Option.bind_eq_some_iff.1 h
    simp only [Option.pure_def, Option.some.injEq] at h
    subst h
    have t1 := (step_pnArg G hx hr h1).1
    have t2 : Step s 0 s1 (s1.asm op reg 0) := Step.here (reg := reg) (stepCond hop.symm (fun _ => ok_nat (by omega) (by omega)) (.inl rfl))
      (Nat.lt_of_lt_of_le hs t1.ext.stack)
    have t3 := (step_pnArg G hy hr h2).1
    have hl := t3.ext.len
    have hl' : (s1.asm op reg 0).len = s1.len + 1 := rfl
    refine (t1.trans (t2.trans t3)).trans (step_patchB (t := s2.len) (by omega) ?_ (Nat.le_refl _) rfl)
    rw [t3.ext.op _ (by omega), asm_at]; exact hop.symm
  have hone : ∀ op, two op = true → (do return (← pnArg rec x reg st).asm op reg reg : Option CSt) = some st' → Step s 0 st st' := by
    intro op hop h
    obtain ⟨s1, h1, h⟩ := Option.bind_eq_some_iff.1 h
    simp only [Option.pure_def, Option.some.injEq] at h
    subst h
    have t1 := (step_pnArg G hx hr h1).1
    exact t1.trans (Step.here (reg := reg) (step2 hop fun _ => ⟨ok_nat (by omega) (by omega), ok_nat (by omega) (by omega)⟩)
      (Nat.lt_of_lt_of_le hs t1.ext.stack))
  have hall : ∀ g : Nat → Tree → CSt → Option CSt, (∀ i v st st', Nice s v → g i v st = some st' → Step s 0 st st') →
      ∀ st0, (if isNil x then some st0 else match x with
        | .tup vs => each g 0 vs st0
        | _ => none) = some st' → Step s 0 st0 st' := by
    intro g hg st0 h
    split at h
    · injection h with h; subst h; exact .refl ..
    · split at h
      · exact step_each (fun i v st st' hv hh => hg i v st st' (hx.mem hv) hh) h
      · contradiction
  cases k <;> simp only [node] at h
  case code => exact hall _ (fun i v st st' hv hh => (G _ _ _ _ _ hh hr hv).1) _ h
  case block => exact hall _ (fun i v st st' hv hh => (G _ _ _ _ _ hh hr hv).1) _ h
  case expr => exact hall _ (fun i v st st' hv hh => (G _ _ _ _ _ hh hr hv).1) _ h
  case list =>
    have t0 : Step s 0 st (st.asm .newtuple reg 0) := Step.here (reg := reg) (step1 rfl fun _ => ok_nat (by omega) (by omega)) hs
    exact t0.trans (hall _ (fun i v st st' hv hh => step_listItem G hr hv hh) _ h)
  case proto => exact Step.here (reg := reg) (step_block G hy (fun _ => ok_nat (by omega) (by omega)) hr h) hs
  case value => exact step_value hr hs h
  case assign => exact step_assign G hr hs hn h
  case inc =>
    split at h
    · injection h with h; subst h; exact step_incr hr
    · contradiction
  case not => exact hone _ rfl h
  case wavy => exact hone _ rfl h
  case and => exact hjmp _ (.inl rfl) h
  case or => exact hjmp _ (.inr rfl) h
  case msg => exact step_msg G hr hs hn (.inl rfl) h
  case query => exact step_msg G hr hs hn (.inr rfl) h
  case path => injection h with h; subst h; exact step_path' hr
  case pathq => injection h with h; subst h; exact step_path' hr
  case lick => exact step_lick G hr hy hz h
  case pipe => injection h with h; subst h; exact .refl ..
  case caret => injection h with h; subst h; exact .refl ..
  case amp => injection h with h; subst h; exact .refl ..
  all_goals exact hbin _ rfl h

theorem good_asmb (s : Nat) (dl) : ∀ n, Good s (asmb dl n)
  | 0 => fun t c r st st' h => by simp [asmb] at h
  | n + 1 => by
    intro t c r st st' h hr hn
    cases t with
    | node k a b x =>
      simp only [asmb] at h
      have hs := regs_lt st r
      have := step_node (good_asmb s dl n) hr hs hn h
      exact ⟨(step_regs ..).trans this, Nat.lt_of_lt_of_le hs this.ext.stack⟩
    | _ => simp [asmb] at h

theorem compile_neat {s : Nat} {dl n} {t : Tree} {f : Fn} (h : compile dl n t = some f) (hn : Nice s t) : Neat s f := by
  unfold compile at h
  obtain ⟨⟨g, out⟩, hc, rfl⟩ := Option.map_eq_some_iff.1 h
  obtain ⟨sg, locals, st, h1, rfl, rfl⟩ := sig_locals_fn hc
  obtain ⟨t1, h2⟩ := good_asmb s dl n _ _ _ _ _ h1 (by omega) hn
  exact close_neat (t1.inv 0 (Nat.le_refl 0) (inv_top ..)) h2 sg

end Potion.CompileAll
