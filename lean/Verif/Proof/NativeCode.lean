import Verif.Proof.CompileSize
import Verif.Spec.Native
import Verif.Spec.Jit
/-!
Compiled programs without functions are `Jit.Simple`.
-/
namespace Potion.Compile
open Potion Potion.Vm Potion.Spec

/-- Operators the machine code has, in register `r`. -/
def binOk (r : Nat) : BinOp → Bool
  | .plus | .minus | .times | .div | .rem | .eq | .neq => true
  | .lt | .lte | .gt | .gte => decide (r ≤ 15) || decide (31 < r)
  | .bitl | .bitr | .cmp => false

def natSrc : Nat → Src → Bool
  | _, .skip | _, .value _ | _, .msg _ | _, .inc .. | _, .brk | _, .cont | _, .self => true
  | r, .seq a b | r, .chain a b | r, .and a b | r, .or a b => natSrc r a && natSrc r b
  | r, .paren a | r, .assign _ a | r, .not a | r, .wavy a | r, .elsem a | r, .loopm a => natSrc r a
  | r, .bin op a b => binOk r op && natSrc r a && natSrc (r+1) b
  | r, .ifm c b | r, .elsifm c b | r, .whilem c b => natSrc (r+1) c && natSrc r b
  | r, .retv a => decide (r = 0) && natSrc r a
  | r, .ret0 => decide (r = 0)
  | _, .fn .. | _, .call .. | _, .anil | _, .acons .. => false

mutual
theorem natSrc_toSrc : ∀ r p, nativeOk r p = true → natSrc r (toSrc p) = true
  | r, .int _, h | r, .bool _, h | r, .nil, h | r, .var _, h | r, .incr .., h | r, .nop, h | r, .brk, h | r, .cont, h => by
    simp [toSrc, wrap, natSrc]
  | r, .retNil, h => by simpa [toSrc, wrap, natSrc, nativeOk] using h
  | r, .assign _ e, h => by
    simp only [nativeOk] at h; simp only [toSrc, natSrc]; exact natSrc_toSrc r e h
  | r, .arith op a b, h => by
    simp only [nativeOk, Bool.and_eq_true] at h
    simp only [toSrc, natSrc, Bool.and_eq_true]
    refine ⟨⟨?_, natSrc_toSrc r a h.1.2⟩, natSrc_toSrc (r+1) b h.2⟩
    cases op <;> simp_all [opNode, binOk]
  | r, .rel op a b, h => by
    simp only [nativeOk, Bool.and_eq_true] at h
    simp only [toSrc, natSrc, Bool.and_eq_true]
    refine ⟨⟨?_, natSrc_toSrc r a h.1.2⟩, natSrc_toSrc (r+1) b h.2⟩
    cases op <;> exact h.1.1
  | r, .eq neg a b, h => by
    simp only [nativeOk, Bool.and_eq_true] at h
    simp only [toSrc, natSrc, Bool.and_eq_true]
    refine ⟨⟨?_, natSrc_toSrc r a h.1⟩, natSrc_toSrc (r+1) b h.2⟩
    cases neg <;> rfl
  | r, .not a, h | r, .bitnot a, h | r, .loop a, h => by
    simp only [nativeOk] at h
    simp only [toSrc, wrap, natSrc, natSrc_toSrc r a h, Bool.and_self]
  | r, .group a, h => by
    simp only [nativeOk] at h; simp only [toSrc, natSrc]; exact natSrc_toSrc r a h
  | r, .and a b, h | r, .or a b, h | r, .seq a b, h => by
    simp only [nativeOk, Bool.and_eq_true] at h
    simp only [toSrc, natSrc, natSrc_toSrc r a h.1, natSrc_toSrc r b h.2, Bool.and_self]
  | r, .ifs c a t, h => by
    simp only [nativeOk, Bool.and_eq_true] at h
    simp only [toSrc, natSrc, natSrc_toSrc (r+1) c h.1.1, natSrc_toSrc r a h.1.2, natSrc_toTail r t h.2, Bool.and_self]
  | r, .while c a, h => by
    simp only [nativeOk, Bool.and_eq_true] at h
    simp only [toSrc, wrap, natSrc, natSrc_toSrc (r+1) c h.1, natSrc_toSrc r a h.2, Bool.and_self]
  | r, .ret a, h => by
    simp only [nativeOk, Bool.and_eq_true] at h
    simp only [toSrc, wrap, natSrc, h.1, natSrc_toSrc r a h.2, Bool.and_self]
  | r, .fn .., h | r, .call .., h => by simp [nativeOk] at h
theorem natSrc_toTail : ∀ r t, nativeTail r t = true → natSrc r (toTail t) = true
  | r, .none, _ => by simp [toTail, natSrc]
  | r, .elsif c a t, h => by
    simp only [nativeTail, Bool.and_eq_true] at h
    simp only [toTail, natSrc, natSrc_toSrc (r+1) c h.1.1, natSrc_toSrc r a h.1.2, natSrc_toTail r t h.2, Bool.and_self]
  | r, .els a, h => by
    simp only [nativeTail] at h
    simp only [toTail, wrap, natSrc, natSrc_toSrc r a h, Bool.and_self]
end

/-- The highest register used, above the first. -/
def high : Src → Nat
  | .seq a b | .chain a b | .and a b | .or a b => max (high a) (high b)
  | .paren a | .assign _ a | .not a | .wavy a | .retv a => high a
  | .inc _ n => if isInt n then 2 else 1
  | .bin _ a b => max (high a) (high b + 1)
  | .ifm c b | .elsifm c b | .whilem c b => max (high c + 1) (high b)
  | .elsem b | .loopm b => max 1 (high b)
  | _ => 0

theorem stack_asm (st : CSt) (op a b) : (st.asm op a b).stack = st.stack := rfl
theorem stack_patchB (st : CSt) (a b) : (st.patchB a b).stack = st.stack := rfl
theorem protos_patchB (st : CSt) (a b) : (st.patchB a b).protos = st.protos := rfl
theorem stack_patchAll (tg : Int) : ∀ (l : List Nat) (st : CSt), (st.patchAll tg l).stack = st.stack ∧ (st.patchAll tg l).protos = st.protos
  | [], _ => ⟨rfl, rfl⟩
  | _ :: l, _ => stack_patchAll tg l _
theorem regs_stack (st : CSt) (r : Nat) : st.stack ≤ (st.regs r).stack ∧ r < (st.regs r).stack := by
  unfold CSt.regs; split <;> simp <;> omega

theorem upval_protos (s : CSt) (x : Name) : (s.upval x).1.protos = s.protos ∧ (s.upval x).1.stack = s.stack := by
  unfold CSt.upval; split
  · exact ⟨rfl, rfl⟩
  · split
    · exact ⟨rfl, rfl⟩
    · split <;> exact ⟨rfl, rfl⟩

theorem look_protos {s st : CSt} {x up n} (h : s.look x = some (st, up, n)) : st.protos = s.protos ∧ st.stack = s.stack := by
  have hu := upval_protos s x
  unfold CSt.look at h
  split at h
  · rename_i e; rw [e] at hu; cases h; exact hu
  · rename_i e; rw [e] at hu
    split at h
    · cases h; exact hu
    · cases h

theorem bind_protos (s : CSt) (x : Name) : (s.bind x).1.protos = s.protos ∧ (s.bind x).1.stack = s.stack := by
  have hu := upval_protos s x
  unfold CSt.bind
  split
  · rename_i e; rw [e] at hu; exact hu
  · rename_i e; rw [e] at hu; exact hu

theorem comp_high (t : Src) : ∀ arg count reg st st', comp t arg count reg st = some st' → natSrc reg t = true → reg + width t ≤ 255 →
    reg + high t < st'.stack ∧ st'.protos = st.protos := by
  induction t with
  | skip =>
    intro arg count reg st st' h _ _
    simp only [comp] at h; cases h
    exact ⟨(regs_stack st reg).2, by simp⟩
  | seq a b iha ihb | chain a b iha ihb =>
    intro arg count reg st st' h hn hw
    simp only [comp] at h
    simp only [natSrc, Bool.and_eq_true, width] at hn hw
    split at h
    · simp at h
    · rename_i s1 h1
      have c1 := iha _ _ _ _ _ h1 hn.1 (by omega)
      have c2 := ihb _ _ _ _ _ h hn.2 (by omega)
      have c3 := comp_grow h
      simp only [high]
      exact ⟨by omega, by rw [c2.2, c1.2]; simp⟩
  | paren a iha =>
    intro arg count reg st st' h hn hw
    simp only [comp] at h
    split at h
    · exact iha _ _ _ _ _ h hn hw
    · simp at h
  | value v =>
    intro arg count reg st st' h hn hw
    simp only [comp] at h
    have := (regs_stack st reg).2
    split at h <;> cases h <;> exact ⟨by simpa [CSt.asm, high] using this, by simp [CSt.asm]⟩
  | msg x =>
    intro arg count reg st st' h hn hw
    simp only [comp] at h
    have := (regs_stack st reg).2
    split at h
    · split at h
      · simp at h
      · rename_i s1 up n h1
        cases h
        have := look_protos h1
        exact ⟨by simp only [stack_asm, high]; omega, by simp [CSt.asm, this.1]⟩
    · simp at h
  | assign x e ih =>
    intro arg count reg st st' h hn hw
    simp only [comp] at h
    simp only [natSrc, width] at hn hw
    split at h
    · simp at h
    · split at h
      · simp at h
      · rename_i s1 h1
        cases h
        have c1 := ih _ _ _ _ _ h1 hn (by omega)
        simp only [high]
        exact ⟨Nat.lt_of_lt_of_le c1.1 (regs_stack (CSt.asm s1 _ _ _) _).1, by simp [CSt.asm, c1.2, (bind_protos _ x).1]⟩
  | inc x n =>
    intro arg count reg st st' h hn hw
    simp only [comp] at h
    simp only [width] at hw
    have hb := (bind_protos (st.regs reg) x).1
    split at h <;> cases h
    · rename_i hi
      simp only [high, hi, if_true]
      rw [u8_id (by omega)]
      refine ⟨?_, ?_⟩
      · exact (regs_stack _ _).2
      · simp [CSt.asm, hb]
    · rename_i hi
      simp only [high, hi]
      refine ⟨?_, ?_⟩
      · exact (regs_stack _ _).2
      · simp [CSt.asm, hb]
  | bin op a b iha ihb =>
    intro arg count reg st st' h hn hw
    simp only [comp] at h
    simp only [natSrc, Bool.and_eq_true, width] at hn hw
    split at h
    · simp at h
    · rename_i s1 h1
      split at h
      · simp at h
      · rename_i s2 h2
        cases h
        rw [u8_id (by omega)] at h2
        have c1 := iha _ _ _ _ _ h1 hn.1.2 (by omega)
        have c2 := ihb _ _ _ _ _ h2 hn.2 (by omega)
        have c3 := comp_grow h2
        simp only [high, stack_asm]
        exact ⟨by omega, by simp [CSt.asm, c2.2, c1.2]⟩
  | not a iha | wavy a iha =>
    intro arg count reg st st' h hn hw
    simp only [comp] at h
    simp only [natSrc, width] at hn hw
    split at h
    · simp at h
    · rename_i s1 h1
      cases h
      have c1 := iha _ _ _ _ _ h1 hn (by omega)
      exact ⟨c1.1, by simp [CSt.asm, c1.2]⟩
  | and a b iha ihb | or a b iha ihb =>
    intro arg count reg st st' h hn hw
    simp only [comp] at h
    simp only [natSrc, Bool.and_eq_true, width] at hn hw
    split at h
    · simp at h
    · rename_i s1 h1
      split at h
      · simp at h
      · rename_i s2 h2
        cases h
        have c1 := iha _ _ _ _ _ h1 hn.1 (by omega)
        have c2 := ihb _ _ _ _ _ h2 hn.2 (by omega)
        have c3 := comp_grow h2
        simp only [stack_asm] at c3
        simp only [high, stack_patchB]
        exact ⟨by omega, by simp [CSt.patchB, c2.2, CSt.asm, c1.2]⟩
  | ifm c b ihc ihb =>
    intro arg count reg st st' h hn hw
    simp only [comp] at h
    simp only [natSrc, Bool.and_eq_true, width] at hn hw
    rw [u8_id (by omega)] at h
    split at h
    · simp at h
    · rename_i s1 h1
      split at h
      · simp at h
      · rename_i s2 h2
        cases h
        have c1 := ihc _ _ _ _ _ h1 hn.1 (by omega)
        have c2 := ihb _ _ _ _ _ h2 hn.2 (by omega)
        have c3 := comp_grow h2
        have c4 := regs_stack (s2.patchB s1.len ((s2.len : Int) - s1.len - 1)) (reg + 1)
        simp only [stack_asm, stack_patchB] at c3 c4
        simp only [high]
        exact ⟨by omega, by simp [protos_patchB, c2.2, CSt.asm, c1.2]⟩
  | elsifm c b ihc ihb =>
    intro arg count reg st st' h hn hw
    simp only [comp] at h
    simp only [natSrc, Bool.and_eq_true, width] at hn hw
    rw [u8_id (by omega)] at h
    split at h
    · simp at h
    · rename_i s1 h1
      split at h
      · simp at h
      · rename_i s2 h2
        cases h
        have c1 := ihc _ _ _ _ _ h1 hn.1 (by omega)
        have c2 := ihb _ _ _ _ _ h2 hn.2 (by omega)
        have c3 := comp_grow h2
        simp only [stack_asm] at c3
        simp only [high]
        refine ⟨?_, by simp [protos_patchB, c2.2, CSt.asm, c1.2]⟩
        have := (regs_stack (CSt.patchB (s2.patchB (st.regs reg).len ((s2.len : Int) - (st.regs reg).len - 1)) s1.len
          (((s2.patchB (st.regs reg).len ((s2.len : Int) - (st.regs reg).len - 1)).len : Int) - s1.len - 1)) (reg + 1)).1
        simp only [stack_patchB] at this
        omega
  | elsem b ihb =>
    intro arg count reg st st' h hn hw
    simp only [comp] at h
    simp only [natSrc, width] at hn hw
    rw [u8_id (by omega)] at h
    split at h
    · simp at h
    · rename_i s2 h2
      cases h
      have c2 := ihb _ _ _ _ _ h2 hn (by omega)
      have c4 := regs_stack (s2.patchB (st.regs reg).len ((s2.len : Int) - (st.regs reg).len - 1)) (reg + 1)
      simp only [stack_patchB] at c4
      simp only [high]
      exact ⟨by omega, by simp [protos_patchB, c2.2, CSt.asm]⟩
  | whilem c b ihc ihb =>
    intro arg count reg st st' h hn hw
    simp only [comp] at h
    simp only [natSrc, Bool.and_eq_true, width] at hn hw
    rw [u8_id (by omega)] at h
    split at h
    · simp at h
    · rename_i s1 h1
      split at h
      · simp at h
      · rename_i s2 h2
        cases h
        have c1 := ihc _ _ _ _ _ h1 hn.1 (by omega)
        have c2 := ihb _ _ _ _ _ h2 hn.2 (by omega)
        have c3 := comp_grow h2
        simp only [stack_asm] at c3
        simp only [high]
        refine ⟨?_, ?_⟩
        · refine Nat.lt_of_lt_of_le ?_ (regs_stack _ _).1
          simp only [(stack_patchAll _ _ _).1, stack_patchB, stack_asm]
          omega
        · rw [regs_protos]
          simp only [(stack_patchAll _ _ _).2, protos_patchB]
          simp [CSt.asm, c2.2, c1.2]
  | loopm b ihb =>
    intro arg count reg st st' h hn hw
    simp only [comp] at h
    simp only [natSrc, width] at hn hw
    rw [u8_id (by omega)] at h
    split at h
    · simp at h
    · rename_i s2 h2
      cases h
      have c2 := ihb _ _ _ _ _ h2 hn (by omega)
      simp only [high]
      refine ⟨?_, ?_⟩
      · refine Nat.lt_of_lt_of_le ?_ (Nat.le_refl _)
        have : ∀ s : CSt, s.stack = s2.stack → reg + max 1 (high b) < (s.regs (reg + 1)).stack := by
          intro s hs
          have := regs_stack s (reg + 1)
          omega
        apply this
        simp only [(stack_patchAll _ _ _).1, stack_asm]
      · rw [regs_protos]
        simp only [(stack_patchAll _ _ _).2]
        simp [CSt.asm, c2.2]
  | retv a iha =>
    intro arg count reg st st' h hn hw
    simp only [comp] at h
    simp only [natSrc, Bool.and_eq_true, width] at hn hw
    split at h
    · simp at h
    · rename_i s1 h1
      cases h
      have c1 := iha _ _ _ _ _ h1 hn.2 (by omega)
      exact ⟨c1.1, by simp [CSt.asm, c1.2]⟩
  | ret0 =>
    intro arg count reg st st' h hn hw
    simp only [comp] at h; cases h
    exact ⟨(regs_stack st reg).2, by simp [CSt.asm]⟩
  | brk | cont =>
    intro arg count reg st st' h hn hw
    simp only [comp] at h
    split at h
    · simp at h
    · split at h
      · cases h
        exact ⟨(regs_stack st reg).2, by simp [CSt.asm]⟩
      · simp at h
  | self =>
    intro arg count reg st st' h hn hw
    simp only [comp] at h; cases h
    exact ⟨(regs_stack st reg).2, by simp [CSt.asm]⟩
  | fn ps b | call x as | anil | acons a as =>
    intro arg count reg st st' h hn hw
    simp [natSrc] at hn

theorem code_le (t : Src) {T lp reg p q} (h : CodeAt T t lp reg p q) : p ≤ q := CodeAt.le _ _ _ _ _ h

/-- Instruction `k` has its operands in range and leads to one of the instructions up to `N`. -/
def InsOk (f : Proto) (N k : Nat) : Prop := Jit.Operands f (f.code k) ∧ ∀ dst, Jit.Leads (f.code k) k dst → 0 ≤ dst ∧ dst ≤ N

section
variable {T : Tgt} {N k : Nat}

theorem ok_next {i : Ins} (hc : T.f.code k = i) (ho : Jit.Operands T.f i) (hl : ∀ dst, Jit.Leads i k dst → dst = k + 1) (hk : k < N) : InsOk T.f N k := by
  unfold InsOk
  rw [hc]
  exact ⟨ho, fun dst h => by have := hl dst h; omega⟩

theorem ok_jmp {e : Nat} (hc : T.f.code k = ⟨.jmp, (e : Int) - k - 1, 0⟩) (he : e ≤ N) : InsOk T.f N k := by
  unfold InsOk
  rw [hc]
  refine ⟨trivial, fun dst h => ?_⟩
  have : dst = (k : Int) + ((e : Int) - k - 1) + 1 := h
  omega

theorem ok_testjmp {e r : Nat} (hc : T.f.code k = ⟨.testjmp, (r : Nat), (e : Int) - k - 1⟩) (hr : r < T.f.stack) (he : e ≤ N) (hk : k < N) :
    InsOk T.f N k := by
  unfold InsOk
  rw [hc]
  refine ⟨⟨by show (0 : Int) ≤ r; omega, by show (r : Int) < _; omega⟩, fun dst h => ?_⟩
  have : dst = (k : Int) + 1 ∨ dst = (k : Int) + ((e : Int) - k - 1) + 1 := h
  omega

theorem ok_notjmp {e r : Nat} (hc : T.f.code k = ⟨.notjmp, (r : Nat), (e : Int) - k - 1⟩) (hr : r < T.f.stack) (he : e ≤ N) (hk : k < N) :
    InsOk T.f N k := by
  unfold InsOk
  rw [hc]
  refine ⟨⟨by show (0 : Int) ≤ r; omega, by show (r : Int) < _; omega⟩, fun dst h => ?_⟩
  have : dst = (k : Int) + 1 ∨ dst = (k : Int) + ((e : Int) - k - 1) + 1 := h
  omega

theorem isReg {f : Proto} {r : Nat} (h : r < f.stack) : Jit.IsReg f (r : Nat) := ⟨by omega, by omega⟩

theorem ok_get {x up i r} (hU : T.U = []) (hL : T.f.localsize = T.L.length) (hv : VarAt T x up i) (hc : T.f.code k = ⟨getOp up, (r : Nat), (i : Nat)⟩)
    (hr : r < T.f.stack) (hk : k < N) : InsOk T.f N k := by
  unfold VarAt at hv
  cases up
  · simp only [Bool.false_eq_true, if_false] at hv
    have := List.idxOf_lt_length_iff.2 hv.1
    exact ok_next hc ⟨isReg hr, by constructor <;> (simp only []; omega)⟩ (fun dst h => h) hk
  · simp [hU] at hv

theorem ok_set {x up i r} (hU : T.U = []) (hL : T.f.localsize = T.L.length) (hv : VarAt T x up i) (hc : T.f.code k = ⟨setOp up, (r : Nat), (i : Nat)⟩)
    (hr : r < T.f.stack) (hk : k < N) : InsOk T.f N k := by
  unfold VarAt at hv
  cases up
  · simp only [Bool.false_eq_true, if_false] at hv
    have := List.idxOf_lt_length_iff.2 hv.1
    exact ok_next hc ⟨isReg hr, by constructor <;> (simp only []; omega)⟩ (fun dst h => h) hk
  · simp [hU] at hv

theorem ok_bin {op : BinOp} {r : Nat} (hb : binOk r op = true) (hc : T.f.code k = ⟨op.opc, (r : Nat), (r+1 : Nat)⟩) (hr : r + 1 < T.f.stack) (hk : k < N) :
    InsOk T.f N k := by
  have r1 := isReg (f := T.f) (r := r) (by omega)
  have r2 := isReg hr
  cases op with
  | plus | minus | times | div | rem | eq | neq => exact ok_next hc ⟨r1, r2⟩ (fun dst h => h) hk
  | lt | lte | gt | gte =>
    simp only [binOk, Bool.or_eq_true, decide_eq_true_eq] at hb
    exact ok_next hc ⟨r1, r2, by simp only []; omega⟩ (fun dst h => h) hk
  | bitl | bitr | cmp => simp [binOk] at hb

end

theorem code_ok {T : Tgt} {N : Nat} (hU : T.U = []) (hL : T.f.localsize = T.L.length) (hV : T.f.values.length ≤ 2048) (t : Src) :
    ∀ {lp reg p q}, CodeAt T t lp reg p q → natSrc reg t = true → reg + high t < T.f.stack → q ≤ N →
      (∀ bt ct, lp = some (bt, ct) → bt ≤ N ∧ ct ≤ N) → ∀ k, p ≤ k → k < q → InsOk T.f N k := by
  induction t with
  | skip => intro lp reg p q h hn hh hq hlp k h1 h2; simp only [CodeAt] at h; omega
  | seq a b iha ihb | chain a b iha ihb =>
    intro lp reg p q h hn hh hq hlp k h1 h2
    obtain ⟨m, c1, c2⟩ := h
    simp only [natSrc, Bool.and_eq_true, high] at hn hh
    have l2 := code_le _ c2
    by_cases hk : k < m
    · exact iha c1 hn.1 (by omega) (by omega) hlp k h1 hk
    · exact ihb c2 hn.2 (by omega) hq hlp k (by omega) h2
  | value v =>
    intro lp reg p q h hn hh hq hlp k h1 h2
    obtain ⟨rfl, h⟩ := h
    obtain rfl : k = p := by omega
    simp only [high] at hh
    rcases h with ⟨b, h, _⟩ | ⟨i, h, hv⟩
    · exact ok_next h (isReg (by omega)) (fun dst h => h) (by omega)
    · have := (List.getElem?_eq_some_iff.1 hv).1
      exact ok_next h ⟨isReg (by omega), by simp only []; omega⟩ (fun dst h => h) (by omega)
  | msg x =>
    intro lp reg p q h hn hh hq hlp k h1 h2
    obtain ⟨rfl, up, i, hv, h⟩ := h
    obtain rfl : k = p := by omega
    simp only [high] at hh
    exact ok_get hU hL hv h (by omega) (by omega)
  | paren a ih => 
    intro lp reg p q h hn hh hq hlp k h1 h2
    exact ih h hn hh hq hlp k h1 h2
  | assign x e ih =>
    intro lp reg p q h hn hh hq hlp k h1 h2
    obtain ⟨m, c1, ⟨up, i, hv, hc⟩, rfl⟩ := h
    simp only [natSrc, high] at hn hh
    by_cases hk : k < m
    · exact ih c1 hn hh (by omega) hlp k h1 hk
    · obtain rfl : k = m := by omega
      exact ok_set hU hL hv hc (by omega) (by omega)
  | inc x n =>
    intro lp reg p q h hn hh hq hlp k h1 h2
    obtain ⟨up, i, hv, hc, h⟩ := h
    simp only [high] at hh
    split at h
    · rename_i hi
      simp only [hi, if_true] at hh
      obtain ⟨a1, a2, a3, a4, rfl⟩ := h
      rcases (by omega : k = p ∨ k = p + 1 ∨ k = p + 2 ∨ k = p + 3 ∨ k = p + 4) with rfl | rfl | rfl | rfl | rfl
      · exact ok_get hU hL hv hc (by omega) (by omega)
      · exact ok_next a1 ⟨isReg (by omega), isReg (by omega)⟩ (fun dst h => h) (by omega)
      · exact ok_next a2 (isReg (by omega)) (fun dst h => h) (by omega)
      · exact ok_next a3 ⟨isReg (by omega), isReg (by omega)⟩ (fun dst h => h) (by omega)
      · exact ok_set hU hL hv a4 (by omega) (by omega)
    · rename_i hi
      simp only [hi] at hh
      obtain ⟨a2, a3, a4, rfl⟩ := h
      rcases (by omega : k = p ∨ k = p + 1 ∨ k = p + 2 ∨ k = p + 3) with rfl | rfl | rfl | rfl
      · exact ok_get hU hL hv hc (by omega) (by omega)
      · exact ok_next a2 (isReg (by simp at hh; omega)) (fun dst h => h) (by omega)
      · exact ok_next a3 ⟨isReg (by omega), isReg (by simp at hh; omega)⟩ (fun dst h => h) (by omega)
      · exact ok_set hU hL hv a4 (by omega) (by omega)
  | bin op a b iha ihb =>
    intro lp reg p q h hn hh hq hlp k h1 h2
    obtain ⟨m, n, c1, c2, hc, rfl⟩ := h
    simp only [natSrc, Bool.and_eq_true, high] at hn hh
    have l2 := code_le _ c2
    by_cases hk : k < m
    · exact iha c1 hn.1.2 (by omega) (by omega) hlp k h1 hk
    by_cases hk' : k < n
    · exact ihb c2 hn.2 (by omega) (by omega) hlp k (by omega) hk'
    obtain rfl : k = n := by omega
    exact ok_bin hn.1.1 hc (by omega) (by omega)
  | not a ih =>
    intro lp reg p q h hn hh hq hlp k h1 h2
    obtain ⟨m, c1, hc, rfl⟩ := h
    simp only [natSrc, high] at hn hh
    by_cases hk : k < m
    · exact ih c1 hn hh (by omega) hlp k h1 hk
    · obtain rfl : k = m := by omega
      exact ok_next hc (isReg (by omega)) (fun dst h => h) (by omega)
  | wavy a ih =>
    intro lp reg p q h hn hh hq hlp k h1 h2
    obtain ⟨m, c1, hc, rfl⟩ := h
    simp only [natSrc, high] at hn hh
    by_cases hk : k < m
    · exact ih c1 hn hh (by omega) hlp k h1 hk
    · obtain rfl : k = m := by omega
      exact ok_next hc ⟨isReg (by omega), rfl⟩ (fun dst h => h) (by omega)
  | and a b iha ihb =>
    intro lp reg p q h hn hh hq hlp k h1 h2
    obtain ⟨m, c1, hc, c2⟩ := h
    simp only [natSrc, Bool.and_eq_true, high] at hn hh
    have l2 := code_le _ c2
    rcases Nat.lt_trichotomy k m with hk | rfl | hk
    · exact iha c1 hn.1 (by omega) (by omega) hlp k h1 hk
    · exact ok_notjmp hc (by omega) hq (by omega)
    · exact ihb c2 hn.2 (by omega) hq hlp k hk h2
  | or a b iha ihb =>
    intro lp reg p q h hn hh hq hlp k h1 h2
    obtain ⟨m, c1, hc, c2⟩ := h
    simp only [natSrc, Bool.and_eq_true, high] at hn hh
    have l2 := code_le _ c2
    rcases Nat.lt_trichotomy k m with hk | rfl | hk
    · exact iha c1 hn.1 (by omega) (by omega) hlp k h1 hk
    · exact ok_testjmp hc (by omega) hq (by omega)
    · exact ihb c2 hn.2 (by omega) hq hlp k hk h2
  | ifm a b iha ihb =>
    intro lp reg p q h hn hh hq hlp k h1 h2
    obtain ⟨m, c1, hc, c2⟩ := h
    simp only [natSrc, Bool.and_eq_true, high] at hn hh
    have l2 := code_le _ c2
    rcases Nat.lt_trichotomy k m with hk | rfl | hk
    · exact iha c1 hn.1 (by omega) (by omega) hlp k h1 hk
    · exact ok_notjmp hc (by omega) hq (by omega)
    · exact ihb c2 hn.2 (by omega) hq hlp k hk h2
  | elsifm a b iha ihb =>
    intro lp reg p q h hn hh hq hlp k h1 h2
    obtain ⟨h0, m, c1, hc, c2⟩ := h
    simp only [natSrc, Bool.and_eq_true, high] at hn hh
    have l2 := code_le _ c2
    rcases Nat.eq_or_lt_of_le h1 with rfl | h1
    · exact ok_testjmp h0 (by omega) hq (by omega)
    rcases Nat.lt_trichotomy k m with hk | rfl | hk
    · exact iha c1 hn.1 (by omega) (by omega) hlp k h1 hk
    · exact ok_notjmp hc (by omega) hq (by omega)
    · exact ihb c2 hn.2 (by omega) hq hlp k hk h2
  | elsem b ihb =>
    intro lp reg p q h hn hh hq hlp k h1 h2
    obtain ⟨h0, c2⟩ := h
    simp only [natSrc, high] at hn hh
    rcases Nat.eq_or_lt_of_le h1 with rfl | h1
    · exact ok_testjmp h0 (by omega) hq (by omega)
    · exact ihb c2 hn (by omega) hq hlp k h1 h2
  | whilem a b iha ihb =>
    intro lp reg p q h hn hh hq hlp k h1 h2
    obtain ⟨m, e, c1, hc, c2, he, rfl⟩ := h
    simp only [natSrc, Bool.and_eq_true, high] at hn hh
    have l1 := code_le _ c1
    have l2 := code_le _ c2
    rcases Nat.lt_trichotomy k m with hk | rfl | hk
    · exact iha c1 hn.1 (by omega) (by omega) hlp k h1 hk
    · exact ok_notjmp hc (by omega) hq (by omega)
    by_cases hk' : k < e
    · exact ihb c2 hn.2 (by omega) (by omega) (fun bt ct h => by cases h; omega) k hk hk'
    obtain rfl : k = e := by omega
    exact ok_jmp he (by omega)
  | loopm b ihb =>
    intro lp reg p q h hn hh hq hlp k h1 h2
    obtain ⟨e, c2, he, rfl⟩ := h
    simp only [natSrc, high] at hn hh
    have l2 := code_le _ c2
    by_cases hk' : k < e
    · exact ihb c2 hn (by omega) (by omega) (fun bt ct h => by cases h; omega) k h1 hk'
    obtain rfl : k = e := by omega
    exact ok_jmp he (by omega)
  | retv a ih =>
    intro lp reg p q h hn hh hq hlp k h1 h2
    obtain ⟨m, c1, hc, rfl⟩ := h
    simp only [natSrc, Bool.and_eq_true, decide_eq_true_eq, high] at hn hh
    by_cases hk : k < m
    · exact ih c1 hn.2 hh (by omega) hlp k h1 hk
    · obtain rfl : k = m := by omega
      exact ok_next hc (by show (reg : Int) = 0; omega) (fun dst h => h.elim) (by omega)
  | ret0 =>
    intro lp reg p q h hn hh hq hlp k h1 h2
    obtain ⟨c1, hc, rfl⟩ := h
    simp only [natSrc, decide_eq_true_eq, high] at hn hh
    rcases (by omega : k = p ∨ k = p + 1) with rfl | rfl
    · exact ok_next c1 (isReg (by omega)) (fun dst h => h) (by omega)
    · exact ok_next hc (by show (reg : Int) = 0; omega) (fun dst h => h.elim) (by omega)
  | brk =>
    intro lp reg p q h hn hh hq hlp k h1 h2
    obtain ⟨rfl, bt, ct, e, hc⟩ := h
    obtain rfl : k = p := by omega
    exact ok_jmp hc (hlp bt ct e).1
  | cont =>
    intro lp reg p q h hn hh hq hlp k h1 h2
    obtain ⟨rfl, bt, ct, e, hc⟩ := h
    obtain rfl : k = p := by omega
    exact ok_jmp hc (hlp bt ct e).2
  | self =>
    intro lp reg p q h hn hh hq hlp k h1 h2
    obtain ⟨rfl, hc⟩ := h
    obtain rfl : k = p := by omega
    simp only [high] at hh
    exact ok_next hc (isReg (by omega)) (fun dst h => h) (by omega)
  | fn ps b | call x as | anil | acons a as => intro lp reg p q h hn; simp [natSrc] at hn

theorem compile_simple {p : Prog} {f : Proto} {d : Nat} (hc : compile (toSrc p) = some f) (hd : depth p ≤ 255) (hr : Roomy f d)
    (hn : nativeOk 0 p = true) : Jit.Simple f ∧ f.params = [] ∧ f.upvalsize = 0 := by
  obtain ⟨K, hK, hr⟩ := hr
  have hKK : K ≤ (d + 1) * K := Nat.le_mul_of_pos_left _ (by omega)
  have sm : Small f := fun g hg => by have := hr g hg; exact ⟨this.1, this.2.1, this.2.2.1, this.2.2.2.1, this.2.2.2.2.1⟩
  obtain ⟨q, hd', code⟩ := compile_shape hc (by rw [width_toSrc]; exact hd) sm
  have hns := natSrc_toSrc 0 p hn
  have hf := hr f (.self f)
  have hhp : 0 + high (toSrc p) < f.stack ∧ f.protos = [] := by
    unfold compile compileFn at hc
    split at hc
    · cases hc
    · rename_i st h
      obtain rfl := by simpa using hc
      have := comp_high _ _ _ _ _ _ h hns (by rw [width_toSrc]; omega)
      exact ⟨this.1, this.2.trans (by simp [CSt.open, CSt.new])⟩
  have h1 := hd'.up
  have h2 := hd'.loc
  have h3 := hd'.len
  have hp := hd'.params
  simp only [List.length_nil, List.map_nil] at h1 h2 h3 hp
  have pa : Jit.protoargs f = 4 := by unfold Jit.protoargs; rw [hhp.2]; rfl
  have key : ∀ k, k < f.len → InsOk f q k := by
    intro k hk
    by_cases hq : k < q
    · exact code_ok (T := ⟨f, localsOf (toSrc p), []⟩) rfl h2 hf.2.1 (toSrc p) code hns hhp.1 (Nat.le_refl _) (by simp) k (Nat.zero_le _) hq
    · obtain rfl : k = q := by omega
      refine ⟨?_, fun dst h => ?_⟩
      · have : f.code k = ⟨.ret, 0, 0⟩ := hd'.ret
        rw [this]; exact rfl
      · have e : f.code k = ⟨.ret, 0, 0⟩ := hd'.ret
        rw [e] at h
        exact h.elim
  refine ⟨⟨by rw [hhp.2]; simp, by rw [pa]; omega, by omega, by omega, by rw [hp]; simp, fun k hk => (key k hk).1, fun k hk dst h => ?_⟩, hp, h1⟩
  have := (key k hk).2 dst h
  omega

/-! ### Values of programs without functions are no functions -/

def _root_.Potion.Spec.V.flat : V → Prop
  | .fn .. => False
  | _ => True

def SFlat (st : Store) : Prop := ∀ x, (st.main x).flat

def OFlat : Out → Prop
  | .val (some v) | .ret v => v.flat
  | _ => True

theorem SFlat.set {st : Store} (h : SFlat st) {x : Ident} {v : V} (hv : v.flat) : SFlat (st.set (.main x) v) := by
  intro y
  simp only [Store.set]
  split
  · exact hv
  · exact h y

theorem onVal_flat {r : Option (Out × Store)} {k : V → Store → Option (Out × Store)} {o : Out} {e : Store}
    (h : onVal r k = some (o, e)) (hr : ∀ o e, r = some (o, e) → OFlat o ∧ SFlat e)
    (hk : ∀ v env, v.flat → SFlat env → k v env = some (o, e) → OFlat o ∧ SFlat e) : OFlat o ∧ SFlat e := by
  unfold onVal at h
  split at h
  · have := hr _ _ rfl
    exact hk _ _ this.1 this.2 h
  · cases h
  · cases h; exact hr _ _ rfl
  · cases h; exact hr _ _ rfl
  · cases h; exact hr _ _ rfl
  · cases h

theorem read_flat {st : Store} {ok : Claims} {x : Ident} {v : V} (h : SFlat st) (e : st.read ok (.main x) = some v) : v.flat := by
  unfold Store.read at e
  split at e
  · cases e; exact h x
  · cases e

/-- Free of functions and calls. -/
theorem eval_flat (ok : Claims) (d : Nat) : ∀ n p r env o env', nativeOk r p = true → SFlat env → eval ok n d [] p env = some (o, env') →
    OFlat o ∧ SFlat env' := by
  intro n
  induction n with
  | zero => intro p r env o env' _ _ h; simp [eval] at h
  | succ n ih =>
    intro p r env o env' hn hs h
    cases p with
    | int i =>
      simp only [eval] at h
      split at h
      · cases h; exact ⟨trivial, hs⟩
      · cases h
    | bool b => simp only [eval] at h; cases h; exact ⟨trivial, hs⟩
    | nil => simp only [eval] at h; cases h; exact ⟨trivial, hs⟩
    | var x =>
      simp only [eval, place] at h
      split at h
      · rename_i v hv; cases h; exact ⟨read_flat hs hv, hs⟩
      · cases h
    | assign x e =>
      simp only [eval, place] at h
      simp only [nativeOk] at hn
      refine onVal_flat h (fun o e' h => ih _ _ _ _ _ hn hs h) fun v env1 hv hs1 h => ?_
      cases h
      exact ⟨hv, hs1.set hv⟩
    | incr pre up x =>
      simp only [eval, place] at h
      split at h
      · split at h
        · cases h
          exact ⟨trivial, hs.set trivial⟩
        · cases h
      · cases h
    | arith op a b =>
      simp only [eval] at h
      simp only [nativeOk, Bool.and_eq_true] at hn
      refine onVal_flat h (fun o e' h => ih _ _ _ _ _ hn.1.2 hs h) fun v env1 hv hs1 h => ?_
      refine onVal_flat h (fun o e' h => ih _ _ _ _ _ hn.2 hs1 h) fun v env2 hv hs2 h => ?_
      split at h
      · split at h
        · split at h
          · cases h; exact ⟨trivial, hs2⟩
          · cases h
        · cases h
      · cases h
    | rel op a b =>
      simp only [eval] at h
      simp only [nativeOk, Bool.and_eq_true] at hn
      refine onVal_flat h (fun o e' h => ih _ _ _ _ _ hn.1.2 hs h) fun v env1 hv hs1 h => ?_
      refine onVal_flat h (fun o e' h => ih _ _ _ _ _ hn.2 hs1 h) fun v env2 hv hs2 h => ?_
      split at h
      · split at h
        · cases h; exact ⟨trivial, hs2⟩
        · cases h
      · cases h
    | eq op a b =>
      simp only [eval] at h
      simp only [nativeOk, Bool.and_eq_true] at hn
      refine onVal_flat h (fun o e' h => ih _ _ _ _ _ hn.1 hs h) fun v env1 hv hs1 h => ?_
      refine onVal_flat h (fun o e' h => ih _ _ _ _ _ hn.2 hs1 h) fun v env2 hv hs2 h => ?_
      split at h
      · cases h; exact ⟨trivial, hs2⟩
      · cases h
    | not a =>
      simp only [eval] at h
      simp only [nativeOk] at hn
      refine onVal_flat h (fun o e' h => ih _ _ _ _ _ hn hs h) fun v env1 hv hs1 h => ?_
      cases h; exact ⟨trivial, hs1⟩
    | bitnot a =>
      simp only [eval] at h
      simp only [nativeOk] at hn
      refine onVal_flat h (fun o e' h => ih _ _ _ _ _ hn hs h) fun v env1 hv hs1 h => ?_
      split at h
      · cases h; exact ⟨trivial, hs1⟩
      · cases h
    | and a b =>
      simp only [eval] at h
      simp only [nativeOk, Bool.and_eq_true] at hn
      refine onVal_flat h (fun o e' h => ih _ _ _ _ _ hn.1 hs h) fun v env1 hv hs1 h => ?_
      split at h
      · exact ih _ _ _ _ _ hn.2 hs1 h
      · cases h; exact ⟨hv, hs1⟩
    | or a b =>
      simp only [eval] at h
      simp only [nativeOk, Bool.and_eq_true] at hn
      refine onVal_flat h (fun o e' h => ih _ _ _ _ _ hn.1 hs h) fun v env1 hv hs1 h => ?_
      split at h
      · cases h; exact ⟨hv, hs1⟩
      · exact ih _ _ _ _ _ hn.2 hs1 h
    | group a =>
      simp only [eval] at h
      simp only [nativeOk] at hn
      exact ih _ _ _ _ _ hn hs h
    | nop => simp only [eval] at h; cases h; exact ⟨trivial, hs⟩
    | seq a b =>
      simp only [eval] at h
      simp only [nativeOk, Bool.and_eq_true] at hn
      split at h
      · rename_i v e1 h1
        exact ih _ _ _ _ _ hn.2 (ih _ _ _ _ _ hn.1 hs h1).2 h
      · exact ih _ _ _ _ _ hn.1 hs h
    | ifs c a t =>
      simp only [eval] at h
      simp only [nativeOk, Bool.and_eq_true] at hn
      refine onVal_flat h (fun o e' h => ih _ _ _ _ _ hn.1.1 hs h) fun v env1 hv hs1 h => ?_
      split at h
      · exact ih _ _ _ _ _ hn.1.2 hs1 h
      · split at h
        · cases h; exact ⟨trivial, hs1⟩
        · exact ih _ _ _ _ _ (by simpa only [nativeTail] using hn.2) hs1 h
        · exact ih _ r _ _ _ (by simpa only [nativeTail, nativeOk] using hn.2) hs1 h
    | «while» c a =>
      simp only [eval] at h
      have hn0 := hn
      simp only [nativeOk, Bool.and_eq_true] at hn
      refine onVal_flat h (fun o e' h => ih _ _ _ _ _ hn.1 hs h) fun v env1 hv hs1 h => ?_
      split at h
      · split at h
        · rename_i h1; exact ih _ _ _ _ _ hn0 (ih _ _ _ _ _ hn.2 hs1 h1).2 h
        · rename_i h1; exact ih _ _ _ _ _ hn0 (ih _ _ _ _ _ hn.2 hs1 h1).2 h
        · rename_i h1; cases h; exact ⟨trivial, (ih _ _ _ _ _ hn.2 hs1 h1).2⟩
        · exact ih _ _ _ _ _ hn.2 hs1 h
      · cases h; exact ⟨trivial, hs1⟩
    | loop a =>
      simp only [eval] at h
      have hn0 := hn
      simp only [nativeOk] at hn
      split at h
      · rename_i h1; exact ih _ _ _ _ _ hn0 (ih _ _ _ _ _ hn hs h1).2 h
      · rename_i h1; exact ih _ _ _ _ _ hn0 (ih _ _ _ _ _ hn hs h1).2 h
      · rename_i h1; cases h; exact ⟨trivial, (ih _ _ _ _ _ hn hs h1).2⟩
      · exact ih _ _ _ _ _ hn hs h
    | brk | cont => simp only [eval] at h; cases h; exact ⟨trivial, hs⟩
    | ret a =>
      simp only [eval] at h
      simp only [nativeOk, Bool.and_eq_true] at hn
      refine onVal_flat h (fun o e' h => ih _ _ _ _ _ hn.2 hs h) fun v env1 hv hs1 h => ?_
      cases h; exact ⟨hv, hs1⟩
    | retNil => simp only [eval] at h; cases h; exact ⟨trivial, hs⟩
    | fn | call => simp [nativeOk] at hn

/-! ### Every state of the run is tame -/

theorem Star.mild {ok : Claims} {a b : State} (h : Star ok a b) {v s'} (hd : b.step = .done v s') (hb : Mild ok b) :
    ∀ t, Jit.Visits a t → Mild ok t := by
  induction h with
  | refl s =>
    intro t hv
    cases hv with
    | here => exact hb
    | next h _ => rw [hd] at h; cases h
  | head o _ ih =>
    intro t hv
    cases hv with
    | here => exact o.mild
    | next h hv =>
      rw [o.step] at h
      cases h
      exact ih hd hb t hv

theorem Mild.tame {s : State} (h : Mild native s) : Jit.Tame Plainly s := by
  unfold Mild at h
  unfold Jit.Tame
  dsimp only at h ⊢
  revert h
  generalize s.f.code s.pos = i
  obtain ⟨o, a, b⟩ := i
  cases o <;> intro h <;> try (first | exact h | exact h rfl)
  · intro x y hx hy
    obtain ⟨i, j, k, d1, d2, _, hk⟩ := h x y hx hy
    simp only [native, decide_eq_true_eq] at hk
    unfold Jit.Half
    rw [((denotes_iff _ _).1 d1).2, ((denotes_iff _ _).1 d2).2]
    exact ⟨⟨hk.1, hk.2.1⟩, ⟨hk.2.2.1, hk.2.2.2.1⟩, hk.2.2.2.2⟩
  · intro x y hx hy
    obtain ⟨i, j, k, d1, d2, _, hk⟩ := h x y hx hy
    simp only [native, decide_eq_true_eq] at hk
    unfold Jit.Half
    rw [((denotes_iff _ _).1 d1).2, ((denotes_iff _ _).1 d2).2]
    exact ⟨⟨hk.1, hk.2.1⟩, ⟨hk.2.2.1, hk.2.2.2.1⟩, hk.2.2.2.2⟩

end Potion.Compile
