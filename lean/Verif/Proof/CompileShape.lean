import Verif.Proof.CompileCode
import Verif.Spec.Compiler
/-!
`comp` produces code of the shape `CodeAt`.
-/
namespace Potion.Compile
open Potion Potion.Vm

/-- Functions small enough for the operand fields. -/
def Small (f : Proto) : Prop :=
  ∀ g, Within g f → g.len ≤ 2048 ∧ g.values.length ≤ 2048 ∧ g.protos.length ≤ 2048 ∧ g.localsize ≤ 2048 ∧ g.upvalsize ≤ 2048

/-- The function `T` contains what `st` has emitted from position `lo` on, and everything fits the operand fields. -/
structure Fits (T : Tgt) (lp : Option (Nat × Nat)) (lo : Nat) (st : CSt) : Prop where
  code : ∀ k, lo ≤ k → k < st.len → T.f.code k = fin st lp k
  locals : st.locals <+: T.L
  values : st.values <+: T.f.values
  ups : st.upvals <+: T.U
  protos : st.protos <+: T.f.protos
  stack : st.stack ≤ T.f.stack
  small : Small T.f
  nl : T.L.length ≤ 2048
  nu : T.U.length ≤ 2048
  len : st.len ≤ 2048
  lpb : ∀ bt ct, lp = some (bt, ct) → bt ≤ 2048 ∧ ct ≤ 2048
  lps : st.loop.isSome → lp.isSome

theorem Grow.isSome {a b : CSt} (h : Grow a b) : a.loop.isSome = b.loop.isSome := by
  rcases h.loop with ⟨x, y⟩ | ⟨b1, c1, bs', cs', e1, e2, i1, i2⟩ <;> simp [*]

theorem Fits.sub {T : Tgt} {lp lo lo2} {st2 st : CSt} (h : Fits T lp lo st) (g : Grow st2 st) (hl : lo ≤ lo2) :
    Fits T lp lo2 st2 := by
  refine ⟨fun k h1 h2 => ?_, g.locals.trans h.locals, g.values.trans h.values, g.rest.ups.trans h.ups, g.rest.protos.trans h.protos,
    Nat.le_trans g.rest.stack h.stack, h.small, h.nl, h.nu, Nat.le_trans g.len h.len, h.lpb,
    fun x => h.lps (by rw [← g.isSome]; exact x)⟩
  rw [h.code k (by omega) (Nat.lt_of_lt_of_le h2 g.len), g.fin lp k h2]

theorem Fits.unpatch {T : Tgt} {lp lo lo2} {st : CSt} {j d} (h : Fits T lp lo (st.patchB j d)) (hl : lo ≤ lo2) (hj : j < lo2) :
    Fits T lp lo2 st := by
  refine ⟨fun k h1 h2 => ?_, h.locals, h.values, h.ups, h.protos, h.stack, h.small, h.nl, h.nu, h.len, h.lpb, h.lps⟩
  rw [h.code k (by omega) h2, patchB_fin_ne _ _ _ _ _ (by omega)]

theorem Fits.unregs {T : Tgt} {lp lo} {st : CSt} {r} (h : Fits T lp lo (st.regs r)) : Fits T lp lo st :=
  h.sub (regs_grow st r) (Nat.le_refl _)

/-- An instruction appended by `asm` and never patched. -/
theorem Fits.at {T : Tgt} {lp lo} {st st' : CSt} {op a b} (h : Fits T lp lo st') (j : JOk st) (g : Grow (st.asm op a b) st')
    (hl : lo ≤ st.len) : T.f.code st.len = ⟨op, trunc12 a, trunc12 b⟩ := by
  have h1 := g.len
  simp at h1
  rw [h.code _ hl (by omega), g.fin lp _ (by simp), asm_fin j]

/-- An instruction appended by `asm` whose second operand is patched later. -/
theorem Fits.atB {T : Tgt} {lp lo} {st st' : CSt} {op a b} {d : Int} (h : Fits T lp lo (st'.patchB st.len d)) (j : JOk st)
    (g : Grow (st.asm op a b) st') (hl : lo ≤ st.len) : T.f.code st.len = ⟨op, trunc12 a, trunc12 d⟩ := by
  have h1 := g.len
  simp at h1
  have hp : ∀ bs cs, st'.loop = some (bs, cs) → st.len ∉ bs ∧ st.len ∉ cs := by
    refine grow_plain g st.len (by simp) ?_
    intro bs cs e
    have ⟨p, q⟩ := j.1 bs cs e
    exact ⟨fun hk => by have := p _ hk; omega, fun hk => by have := q _ hk; omega⟩
  rw [h.code _ hl (by simp; omega), patchB_fin _ _ _ hp, g.code _ (by simp), asm_code]

/-- A variable of an older state. -/
theorem Fits.var {T : Tgt} {lp lo} {st st' : CSt} {x up i} (h : Fits T lp lo st') (g : Grow st st') (v : VarOf st x up i) :
    VarAt T x up i ∧ i < 2048 := by
  have h1 := h.nl
  have h2 := h.nu
  unfold VarOf at v
  unfold VarAt
  cases up
  · simp only [Bool.false_eq_true, if_false] at v ⊢
    have p := g.locals.trans h.locals
    have := p.length_le
    have := List.idxOf_lt_length_iff.2 v.1
    exact ⟨⟨p.subset v.1, by rw [idxOf_prefix p v.1]; exact v.2⟩, by omega⟩
  · simp only [if_true] at v ⊢
    have p := g.rest.ups.trans h.ups
    have := p.length_le
    have := List.idxOf_lt_length_iff.2 v.1
    exact ⟨⟨p.subset v.1, by rw [idxOf_prefix p v.1]; exact v.2⟩, by omega⟩

theorem u8_id {n : Nat} (h : n ≤ 255) : u8 n = n := by unfold u8; omega

theorem t12n {n : Nat} (h : n < 2048) : trunc12 (n : Int) = n := trunc12_id (by omega) (by omega)

/-- The end of a loop: `s3` is the state after the body (compiled with an empty loop record on top of `s1`), followed by
the backward jump, the patches and the return to the outer loop record. -/
theorem loop_end (s1 s2 s3 : CSt) (j1 : JOk s1) (jmp2 : Nat) (a1 : s1.len ≤ s2.len) (a2 : ∀ k, k < s1.len → s2.code k = s1.code k)
    (a3 : s2.locals = s1.locals) (a4 : s2.values = s1.values) (a5 : s2.loop = some ([], [])) (a6 : Rest s1 s2) (g : Grow s2 s3) :
    ∃ bs cs, s3.loop = some (bs, cs) ∧ ∀ (base : Nat → Ins) (st' : CSt),
      (∀ k, (k < s1.len ∨ s2.len ≤ k) → base k = (s3.asm .jmp ((jmp2 : Int) - s3.len - 1) 0).code k) →
      st'.len = s3.len + 1 → st'.locals = s3.locals → st'.values = s3.values → Rest s3 st' →
      (∀ k : Nat, st'.code k = if k ∈ cs then { base k with a := trunc12 ((jmp2 : Int) - k - 1) }
        else if k ∈ bs then { base k with a := trunc12 (((s3.len + 1 : Nat) : Int) - k - 1) }
        else base k) → st'.loop = s1.loop →
      Grow s1 st' ∧
      (∀ lp, fin st' lp s3.len = ⟨.jmp, trunc12 ((jmp2 : Int) - s3.len - 1), 0⟩) ∧
      (∀ lp k, s1.len ≤ k → k < s2.len → fin st' lp k = base k) ∧
      ∀ lp k, s2.len ≤ k → k < s3.len → fin st' lp k = fin s3 (some (s3.len + 1, jmp2)) k := by
  have hl := g.len
  rcases g.loop with ⟨x, y⟩ | ⟨b1, c1, bs, cs, e1, e2, i1, i2⟩
  · rw [x] at a5; simp at a5
  rw [a5] at e1
  obtain ⟨rfl, rfl⟩ := by simpa using e1
  simp only [List.nil_append] at e2
  refine ⟨bs, cs, e2, fun base st' hbase hlen hloc hval hrest hcode hloop => ?_⟩
  have plain : ∀ lp k, s1.len ≤ k → fin st' lp k = st'.code k := by
    intro lp k hk
    apply fin_plain
    intro b c e
    rw [hloop] at e
    have ⟨p, q⟩ := j1.1 b c e
    exact ⟨fun h => by have := p _ h; omega, fun h => by have := q _ h; omega⟩
  refine ⟨⟨by omega, fun k hk => ?_, ?_, ?_, ?_, a6.trans (g.rest.trans hrest), ?_⟩, ?_, ?_, ?_⟩
  · have n1 : k ∉ bs := fun h => by have := i1 k h; omega
    have n2 : k ∉ cs := fun h => by have := i2 k h; omega
    rw [hcode k, if_neg n2, if_neg n1, hbase k (.inl hk)]
    simp only [CSt.asm]
    rw [if_neg (by omega), g.code k (by omega), a2 k hk]
  · rw [hloc, ← a3]; exact g.locals
  · rw [hloc, ← a3]; exact g.nodup
  · rw [hval, ← a4]; exact g.values
  · rcases h : s1.loop with _ | ⟨b, c⟩
    · exact .inl ⟨rfl, by rw [hloop, h]⟩
    · exact .inr ⟨b, c, [], [], rfl, by rw [hloop, h]; simp, by simp, by simp⟩
  · intro lp
    have n1 : s3.len ∉ bs := fun h => by have := i1 _ h; omega
    have n2 : s3.len ∉ cs := fun h => by have := i2 _ h; omega
    rw [plain lp _ (by omega), hcode, if_neg n2, if_neg n1, hbase _ (.inr hl), asm_code]
    rfl
  · intro lp k h1 h2
    have n1 : k ∉ bs := fun h => by have := i1 k h; omega
    have n2 : k ∉ cs := fun h => by have := i2 k h; omega
    rw [plain lp _ h1, hcode k, if_neg n2, if_neg n1]
  · intro lp k h1 h2
    have e : (s3.asm .jmp ((jmp2 : Int) - s3.len - 1) 0).code k = s3.code k := by
      simp only [CSt.asm]; rw [if_neg (by omega)]
    rw [plain lp _ (by omega), hcode, hbase k (.inr h1), e]
    simp [fin, e2]

theorem argc_le : ∀ t : Src, argc t ≤ width t
  | .acons a as => by simp only [argc, width]; have := argc_le as; omega
  | .skip | .seq .. | .chain .. | .value _ | .msg _ | .paren _ | .assign .. | .inc .. | .bin .. | .not _ | .wavy _ | .and .. | .or .. | .ifm ..
  | .elsifm .. | .elsem _ | .whilem .. | .loopm _ | .retv _ | .ret0 | .brk | .cont | .self | .fn .. | .call .. | .anil => Nat.zero_le _

theorem params_nodup (ps : List Name) : ∀ l : List Name, l.Nodup → (ps.foldl (fun l p => (put l p).1) l).Nodup := by
  induction ps with
  | nil => intro l h; exact h
  | cons p ps ih => intro l h; exact ih _ ((put_spec l p).2.2.2 h)

theorem captures_spec (reg : Nat) : ∀ (xs : List Name) (st : CSt), JOk st → (∀ x ∈ xs, x ∈ st.upvals ∨ x ∈ st.locals) →
    Grow st (st.captures reg xs) ∧ (st.captures reg xs).len = st.len + xs.length ∧
    ∀ T lp lo, Fits T lp lo (st.captures reg xs) → lo ≤ st.len → reg < 2048 → ∀ (j : Nat) x, xs[j]? = some x →
      ∃ up k, VarAt T x up k ∧ T.f.code (st.len + j) = ⟨getOp up, reg, (k : Nat)⟩ := by
  intro xs
  induction xs with
  | nil => intro st hj hx; exact ⟨Grow.refl _, rfl, by simp⟩
  | cons x xs ih =>
    intro st hj hx
    obtain ⟨up, k, hv, he⟩ : ∃ up k, VarOf st x up k ∧ st.captures reg (x :: xs) = (st.asm (getOp up) reg (k : Nat)).captures reg xs := by
      by_cases h : x ∈ st.upvals
      · exact ⟨true, st.upvals.idxOf x, by simp [VarOf, h], by simp [CSt.captures, h, getOp]⟩
      · have h' := (hx x (by simp)).resolve_left h
        exact ⟨false, st.locals.idxOf x, by simp [VarOf, h'], by simp [CSt.captures, h, getOp]⟩
    have ga := asm_grow st (getOp up) reg (k : Nat)
    have ⟨g1, l1, k1⟩ := ih (st.asm (getOp up) reg (k : Nat)) (ga.jok hj) (fun y hy => hx y (by simp [hy]))
    rw [he]
    refine ⟨ga.trans g1, by rw [l1]; simp; omega, fun T lp lo hf hl hr j y hy => ?_⟩
    rcases j with _ | j
    · obtain rfl := by simpa using hy
      have ⟨w1, w2⟩ := hf.var (ga.trans g1) hv
      refine ⟨up, k, w1, ?_⟩
      have := hf.at hj g1 hl
      rw [Nat.add_zero, this, t12n hr, t12n w2]
    · have := k1 T lp lo hf (by simp; omega) hr j y (by simpa using hy)
      obtain ⟨up, k, w, e⟩ := this
      refine ⟨up, k, w, ?_⟩
      rw [← e]; congr 1; simp; omega

theorem Within.trans' {g h f : Proto} (a : Within g h) (b : Within h f) : Within g f := by
  induction b with
  | self => exact a
  | sub m _ ih => exact .sub m ih

theorem Small.sub {f g : Proto} (h : Small f) (m : g ∈ f.protos) : Small g :=
  fun k hk => h k (hk.trans' (.sub m (.self _)))

set_option maxHeartbeats 1000000 in
theorem comp_code (t : Src) : ∀ arg count reg st st', comp t arg count reg st = some st' → JOk st → reg + width t ≤ 255 →
    Grow st st' ∧ ∀ T lp, Fits T lp st.len st' → CodeAt T t lp reg st.len st'.len := by
  induction t with
  | skip =>
    intro arg count reg st st' h hj hw
    simp only [comp, Option.some.injEq] at h
    subst h
    exact ⟨regs_grow _ _, fun T lp hf => by simp [CodeAt]⟩
  | seq a b iha ihb =>
    intro arg count reg st st' h hj hw
    simp only [width] at hw
    simp only [comp] at h
    rcases ha : comp a false 0 reg (st.regs reg) with _ | s1
    · rw [ha] at h; simp at h
    rw [ha] at h; simp only [] at h
    have ⟨g1, k1⟩ := iha _ _ _ _ _ ha ((regs_grow st reg).jok hj) (by omega)
    have g1' := (regs_grow st reg).trans g1
    have ⟨g2, k2⟩ := ihb _ _ _ _ _ h (g1'.jok hj) (by omega)
    have l1 := g1'.len
    refine ⟨g1'.trans g2, fun T lp hf => ⟨s1.len, ?_, k2 T lp (hf.sub (Grow.refl _) l1)⟩⟩
    have := k1 T lp (hf.sub g2 (by simp))
    simpa using this
  | chain a b iha ihb =>
    intro arg count reg st st' h hj hw
    simp only [width] at hw
    simp only [comp] at h
    rcases ha : comp a false count reg (st.regs reg) with _ | s1
    · rw [ha] at h; simp at h
    rw [ha] at h; simp only [] at h
    have ⟨g1, k1⟩ := iha _ _ _ _ _ ha ((regs_grow st reg).jok hj) (by omega)
    have g1' := (regs_grow st reg).trans g1
    have ⟨g2, k2⟩ := ihb _ _ _ _ _ h (g1'.jok hj) (by omega)
    have l1 := g1'.len
    refine ⟨g1'.trans g2, fun T lp hf => ⟨s1.len, ?_, k2 T lp (hf.sub (Grow.refl _) l1)⟩⟩
    have := k1 T lp (hf.sub g2 (by simp))
    simpa using this
  | value v =>
    intro arg count reg st st' h hj hw
    simp only [width] at hw
    simp only [comp] at h
    split at h
    · rename_i him
      obtain rfl := by simpa using h
      have g0 := regs_grow st reg
      have j0 := g0.jok hj
      refine ⟨g0.trans (asm_grow _ _ _ _), fun T lp hf => ?_⟩
      have := hf.at (st := st.regs reg) j0 (Grow.refl _) (by simp)
      refine ⟨by simp, .inl ⟨_, by simpa [t12n (show reg < 2048 by omega)] using this, ?_⟩⟩
      unfold Ops.immediate at him
      have e : v = (v.setWidth 12).signExtend 64 := by
        simp only [Bool.and_eq_true, beq_iff_eq] at him; exact him.2
      apply BitVec.eq_of_toInt_eq
      have hlt := v.isLt
      have e2 : v.toInt = Int.bmod v.toInt 4096 := by
        conv => lhs; rw [e]
        rw [BitVec.toInt_signExtend_of_le (by omega), BitVec.toInt_eq_toNat_bmod, BitVec.toNat_setWidth, BitVec.toInt_eq_toNat_bmod]
        simp only [Int.bmod]; omega
      rw [trunc12, ← e2, BitVec.ofInt_toInt]
    · simp only [Option.some.injEq] at h
      subst h
      have g0 := regs_grow st reg
      have j0 := g0.jok hj
      have ⟨p1, p2, p3, p4⟩ := put_spec st.values v
      have g1 : Grow (st.regs reg) { st.regs reg with values := (put (st.regs reg).values v).1 } := by
        have := Grow.refl (st.regs reg)
        exact ⟨this.len, this.code, this.locals, this.nodup, by simpa using p1, .of rfl rfl (Nat.le_refl _) rfl rfl, this.loop⟩
      refine ⟨(g0.trans g1).trans (asm_grow _ _ _ _), fun T lp hf => ?_⟩
      have hv := hf.values
      simp only [asm_values, regs_values] at hv
      have := hf.at (st := { st.regs reg with values := (put (st.regs reg).values v).1 }) (g1.jok j0) (Grow.refl _) (by simp)
      have hi : (put st.values v).2 < (put st.values v).1.length := by rw [p3]; exact List.idxOf_lt_length_iff.2 p2
      have hle : (put st.values v).1.length ≤ T.f.values.length := hv.length_le
      have hnv := (hf.small _ (.self _)).2.1
      refine ⟨by simp, .inr ⟨(put st.values v).2, ?_, ?_⟩⟩
      · simp only [regs_len, regs_values] at this
        rw [this, t12n (by omega), t12n (by omega)]
      · obtain ⟨tl, hv⟩ := hv
        rw [← hv, List.getElem?_append_left hi, p3]
        exact List.getElem?_eq_some_iff.2 ⟨by rw [← p3]; exact hi, List.getElem_idxOf _⟩
  | msg x =>
    intro arg count reg st st' h hj hw
    simp only [width] at hw
    simp only [comp] at h
    split at h
    · have g0 := regs_grow st reg
      rcases hl : (st.regs reg).look x with _ | ⟨s1, up, num⟩
      · rw [hl] at h; simp at h
      rw [hl] at h
      obtain rfl := by simpa using h
      have ⟨sm, g1, _, hv⟩ := look_spec hl
      have g2 := g0.trans g1
      have l1 : s1.len = st.len := by rw [sm.len]; simp
      refine ⟨g2.trans (asm_grow _ _ _ _), fun T lp hf => ?_⟩
      have e := hf.at (st := s1) (g2.jok hj) (Grow.refl _) (by omega)
      have ⟨w1, w2⟩ := hf.var (asm_grow _ _ _ _) hv
      refine ⟨by simp [l1], up, num, w1, ?_⟩
      rw [l1] at e
      rw [e, t12n (by omega), t12n w2]
    · simp at h
  | paren a iha =>
    intro arg count reg st st' h hj hw
    simp only [width] at hw
    simp only [comp] at h
    split at h
    · exact iha _ _ _ _ _ h hj hw
    · simp at h
  | assign x e ihe =>
    intro arg count reg st st' h hj hw
    simp only [width] at hw
    simp only [comp] at h
    split at h
    · simp at h
    have g0 := regs_grow st reg
    have ⟨sm, g1, hv⟩ := bind_spec (st.regs reg) x
    generalize (st.regs reg).bind x = r at *
    obtain ⟨s0, up, num⟩ := r
    simp only [] at h sm g1 hv
    have l0 : s0.len = st.len := by rw [sm.len]; simp
    rcases he : comp e false 0 reg s0 with _ | s1
    · rw [he] at h; simp at h
    rw [he] at h; simp only [Option.some.injEq] at h
    subst h
    have gg := g0.trans g1
    have ⟨g2, k2⟩ := ihe _ _ _ _ _ he (gg.jok hj) hw
    have g3 := gg.trans g2
    have j3 := g3.jok hj
    have l3 := g3.len
    have g4 := asm_grow s1 (setOp up) reg num
    refine ⟨(g3.trans g4).trans (regs_grow _ _), fun T lp hf => ⟨s1.len, ?_, ?_, ?_⟩⟩
    · have := k2 T lp (hf.sub (g4.trans (regs_grow _ _)) (by omega))
      rwa [l0] at this
    · have ⟨w1, w2⟩ := hf.var (g2.trans (g4.trans (regs_grow _ _))) hv
      have := hf.at (st := s1) j3 (regs_grow _ _) l3
      exact ⟨up, num, w1, by rw [this, t12n (by omega), t12n w2]⟩
    · simp
  | inc x n =>
    intro arg count reg st st' h hj hw
    simp only [width] at hw
    simp only [comp] at h
    have g0 := regs_grow st reg
    have ⟨sm, g1, hv⟩ := bind_spec (st.regs reg) x
    generalize (st.regs reg).bind x = r at *
    obtain ⟨s1, up, num⟩ := r
    simp only [] at h sm g1 hv
    have gg := g0.trans g1
    have hl1 : s1.len = st.len := by rw [sm.len]; simp
    by_cases hn : isInt n
    · simp only [hn, if_true, Option.some.injEq] at h
      rw [u8_id (by omega)] at h
      let s2 := s1.asm (getOp up) reg num
      let s3 := s2.asm .move (reg+1 : Nat) reg
      let s4 := s3.asm .loadpn ((reg+1 : Nat) + 1 : Int) (n ||| 1#64).toInt
      let s5 := s4.asm .add (reg+1 : Nat) ((reg+1 : Nat) + 1 : Int)
      let s6 := s5.asm (setOp up) (reg+1 : Nat) num
      have h : s6.regs (reg+1+1) = st' := h
      subst h
      have e2 : Grow s1 s2 := asm_grow _ _ _ _
      have e3 : Grow s2 s3 := asm_grow _ _ _ _
      have e4 : Grow s3 s4 := asm_grow _ _ _ _
      have e5 : Grow s4 s5 := asm_grow _ _ _ _
      have e6 : Grow s5 s6 := asm_grow _ _ _ _
      have e7 : Grow s6 (s6.regs (reg+1+1)) := regs_grow _ _
      have j1 := gg.jok hj
      have j2 := e2.jok j1
      have j3 := e3.jok j2
      have j4 := e4.jok j3
      have j5 := e5.jok j4
      refine ⟨gg.trans (e2.trans (e3.trans (e4.trans (e5.trans (e6.trans e7))))), fun T lp hf => ?_⟩
      have ⟨w1, w2⟩ := hf.var (e2.trans (e3.trans (e4.trans (e5.trans (e6.trans e7))))) hv
      have c1 := hf.at (st := s1) j1 (e3.trans (e4.trans (e5.trans (e6.trans e7)))) (by omega)
      have c2 := hf.at (st := s2) j2 (e4.trans (e5.trans (e6.trans e7))) (by simp [s2]; omega)
      have c3 := hf.at (st := s3) j3 (e5.trans (e6.trans e7)) (by simp [s2, s3]; omega)
      have c4 := hf.at (st := s4) j4 (e6.trans e7) (by simp [s2, s3, s4]; omega)
      have c5 := hf.at (st := s5) j5 e7 (by simp [s2, s3, s4, s5]; omega)
      have i1 : trunc12 ((reg+1 : Nat) + 1 : Int) = (reg+2 : Nat) := by rw [trunc12_id (by omega) (by omega)]; omega
      rw [t12n (by omega), t12n w2, hl1] at c1
      rw [t12n (by omega), t12n (by omega)] at c2
      rw [i1] at c3
      rw [t12n (by omega), i1] at c4
      rw [t12n (by omega), t12n w2] at c5
      have l2 : s2.len = st.len + 1 := by simp [s2, hl1]
      have l3 : s3.len = st.len + 2 := by simp [s3, l2]
      have l4 : s4.len = st.len + 3 := by simp [s4, l3]
      have l5 : s5.len = st.len + 4 := by simp [s5, l4]
      have l6 : (s6.regs (reg+1+1)).len = st.len + 5 := by simp [s6, l5]
      rw [l2] at c2; rw [l3] at c3; rw [l4] at c4; rw [l5] at c5
      simp only [CodeAt, hn, if_true]
      exact ⟨up, num, w1, c1, c2, c3, c4, c5, l6⟩
    · simp only [hn, if_false, Bool.false_eq_true, Option.some.injEq] at h
      let s2 := s1.asm (getOp up) reg num
      let s3 := s2.asm .loadpn (reg + 1 : Int) (n ||| 1#64).toInt
      let s4 := s3.asm .add reg (reg + 1 : Int)
      let s5 := s4.asm (setOp up) reg num
      have h : s5.regs (reg+1) = st' := h
      subst h
      have e2 : Grow s1 s2 := asm_grow _ _ _ _
      have e3 : Grow s2 s3 := asm_grow _ _ _ _
      have e4 : Grow s3 s4 := asm_grow _ _ _ _
      have e5 : Grow s4 s5 := asm_grow _ _ _ _
      have e6 : Grow s5 (s5.regs (reg+1)) := regs_grow _ _
      have j1 := gg.jok hj
      have j2 := e2.jok j1
      have j3 := e3.jok j2
      have j4 := e4.jok j3
      refine ⟨gg.trans (e2.trans (e3.trans (e4.trans (e5.trans e6)))), fun T lp hf => ?_⟩
      have ⟨w1, w2⟩ := hf.var (e2.trans (e3.trans (e4.trans (e5.trans e6)))) hv
      have c1 := hf.at (st := s1) j1 (e3.trans (e4.trans (e5.trans e6))) (by omega)
      have c2 := hf.at (st := s2) j2 (e4.trans (e5.trans e6)) (by simp [s2]; omega)
      have c3 := hf.at (st := s3) j3 (e5.trans e6) (by simp [s2, s3]; omega)
      have c4 := hf.at (st := s4) j4 e6 (by simp [s2, s3, s4]; omega)
      have i1 : trunc12 (reg + 1 : Int) = (reg+1 : Nat) := by rw [trunc12_id (by omega) (by omega)]; omega
      rw [t12n (by omega), t12n w2, hl1] at c1
      rw [i1] at c2
      rw [t12n (by omega), i1] at c3
      rw [t12n (by omega), t12n w2] at c4
      have l2 : s2.len = st.len + 1 := by simp [s2, hl1]
      have l3 : s3.len = st.len + 2 := by simp [s3, l2]
      have l4 : s4.len = st.len + 3 := by simp [s4, l3]
      have l5 : (s5.regs (reg+1)).len = st.len + 4 := by simp [s5, l4]
      rw [l2] at c2; rw [l3] at c3; rw [l4] at c4
      simp only [CodeAt, hn, if_false, Bool.false_eq_true]
      exact ⟨up, num, w1, c1, c2, c3, c4, l5⟩
  | bin op a b iha ihb =>
    intro arg count reg st st' h hj hw
    simp only [width] at hw
    simp only [comp] at h
    rcases ha : comp a true 0 reg (st.regs reg) with _ | s1
    · rw [ha] at h; simp at h
    rw [ha] at h; simp only [] at h
    rw [u8_id (by omega)] at h
    have ⟨g1, k1⟩ := iha _ _ _ _ _ ha ((regs_grow st reg).jok hj) (by omega)
    have g1' := (regs_grow st reg).trans g1
    rcases hb : comp b true 0 (reg+1) s1 with _ | s2
    · rw [hb] at h; simp at h
    rw [hb] at h; simp only [Option.some.injEq] at h
    subst h
    have j1 := g1'.jok hj
    have ⟨g2, k2⟩ := ihb _ _ _ _ _ hb j1 (by omega)
    have j2 := g2.jok j1
    have l1 := g1'.len
    have l2 := g2.len
    have g3 := asm_grow s2 op.opc reg (reg + 1 : Int)
    refine ⟨(g1'.trans g2).trans g3, fun T lp hf => ⟨s1.len, s2.len, ?_, ?_, ?_, rfl⟩⟩
    · simpa using k1 T lp (hf.sub (g2.trans g3) (by simp))
    · exact k2 T lp (hf.sub g3 l1)
    · have := hf.at (st := s2) j2 (Grow.refl _) (by omega)
      rw [this, t12n (by omega), trunc12_id (by omega) (by omega)]; simp
  | not a iha =>
    intro arg count reg st st' h hj hw
    simp only [width] at hw
    simp only [comp] at h
    rcases ha : comp a true 0 reg (st.regs reg) with _ | s1
    · rw [ha] at h; simp at h
    rw [ha] at h; simp only [Option.some.injEq] at h
    subst h
    have ⟨g1, k1⟩ := iha _ _ _ _ _ ha ((regs_grow st reg).jok hj) (by omega)
    have g1' := (regs_grow st reg).trans g1
    have j1 := g1'.jok hj
    have l1 := g1'.len
    have g3 := asm_grow s1 .not reg reg
    refine ⟨g1'.trans g3, fun T lp hf => ⟨s1.len, ?_, ?_, rfl⟩⟩
    · simpa using k1 T lp (hf.sub g3 (by simp))
    · have := hf.at (st := s1) j1 (Grow.refl _) (by omega)
      rw [this, t12n (by omega)]
  | wavy a iha =>
    intro arg count reg st st' h hj hw
    simp only [width] at hw
    simp only [comp] at h
    rcases ha : comp a true 0 reg (st.regs reg) with _ | s1
    · rw [ha] at h; simp at h
    rw [ha] at h; simp only [Option.some.injEq] at h
    subst h
    have ⟨g1, k1⟩ := iha _ _ _ _ _ ha ((regs_grow st reg).jok hj) (by omega)
    have g1' := (regs_grow st reg).trans g1
    have j1 := g1'.jok hj
    have l1 := g1'.len
    have g3 := asm_grow s1 .bitn reg reg
    refine ⟨g1'.trans g3, fun T lp hf => ⟨s1.len, ?_, ?_, rfl⟩⟩
    · simpa using k1 T lp (hf.sub g3 (by simp))
    · have := hf.at (st := s1) j1 (Grow.refl _) (by omega)
      rw [this, t12n (by omega)]
  | and a b iha ihb =>
    intro arg count reg st st' h hj hw
    simp only [width] at hw
    simp only [comp] at h
    rcases ha : comp a true 0 reg (st.regs reg) with _ | s1
    · rw [ha] at h; simp at h
    rw [ha] at h; simp only [] at h
    have ⟨g1, k1⟩ := iha _ _ _ _ _ ha ((regs_grow st reg).jok hj) (by omega)
    have g1' := (regs_grow st reg).trans g1
    have j1 := g1'.jok hj
    have ga := asm_grow s1 .notjmp reg 0
    rcases hb : comp b true 0 reg (s1.asm .notjmp reg 0) with _ | s2
    · rw [hb] at h; simp at h
    rw [hb] at h; simp only [Option.some.injEq] at h
    subst h
    have ⟨g2, k2⟩ := ihb _ _ _ _ _ hb (ga.jok j1) (by omega)
    have l1 := g1'.len
    have l2 := g2.len
    simp at l2
    have g3 := patchB_grow (ga.trans g2) s1.len (Nat.le_refl _) ((s2.len : Int) - s1.len - 1)
    refine ⟨g1'.trans g3, fun T lp hf => ⟨s1.len, ?_, ?_, ?_⟩⟩
    · simpa using k1 T lp (hf.sub g3 (by simp))
    · have := hf.atB j1 g2 (by omega)
      have hl := hf.len
      simp at hl
      rw [this, t12n (by omega), trunc12_id (by omega) (by omega)]; simp
    · exact k2 T lp (hf.unpatch (by simp; omega) (by simp))
  | or a b iha ihb =>
    intro arg count reg st st' h hj hw
    simp only [width] at hw
    simp only [comp] at h
    rcases ha : comp a true 0 reg (st.regs reg) with _ | s1
    · rw [ha] at h; simp at h
    rw [ha] at h; simp only [] at h
    have ⟨g1, k1⟩ := iha _ _ _ _ _ ha ((regs_grow st reg).jok hj) (by omega)
    have g1' := (regs_grow st reg).trans g1
    have j1 := g1'.jok hj
    have ga := asm_grow s1 .testjmp reg 0
    rcases hb : comp b true 0 reg (s1.asm .testjmp reg 0) with _ | s2
    · rw [hb] at h; simp at h
    rw [hb] at h; simp only [Option.some.injEq] at h
    subst h
    have ⟨g2, k2⟩ := ihb _ _ _ _ _ hb (ga.jok j1) (by omega)
    have l1 := g1'.len
    have l2 := g2.len
    simp at l2
    have g3 := patchB_grow (ga.trans g2) s1.len (Nat.le_refl _) ((s2.len : Int) - s1.len - 1)
    refine ⟨g1'.trans g3, fun T lp hf => ⟨s1.len, ?_, ?_, ?_⟩⟩
    · simpa using k1 T lp (hf.sub g3 (by simp))
    · have := hf.atB j1 g2 (by omega)
      have hl := hf.len
      simp at hl
      rw [this, t12n (by omega), trunc12_id (by omega) (by omega)]; simp
    · exact k2 T lp (hf.unpatch (by simp; omega) (by simp))
  | ifm c b ihc ihb =>
    intro arg count reg st st' h hj hw
    simp only [width] at hw
    simp only [comp] at h
    rw [u8_id (by omega)] at h
    rcases ha : comp c false 0 (reg+1) (st.regs reg) with _ | s1
    · rw [ha] at h; simp at h
    rw [ha] at h; simp only [] at h
    have ⟨g1, k1⟩ := ihc _ _ _ _ _ ha ((regs_grow st reg).jok hj) (by omega)
    have g1' := (regs_grow st reg).trans g1
    have j1 := g1'.jok hj
    have ga := asm_grow s1 .notjmp (reg+1 : Nat) 0
    rcases hb : comp b false 0 reg (s1.asm .notjmp (reg+1 : Nat) 0) with _ | s2
    · rw [hb] at h; simp at h
    rw [hb] at h; simp only [Option.some.injEq] at h
    subst h
    have ⟨g2, k2⟩ := ihb _ _ _ _ _ hb (ga.jok j1) (by omega)
    have l1 := g1'.len
    have l2 := g2.len
    simp at l2
    have g3 := patchB_grow (ga.trans g2) s1.len (Nat.le_refl _) ((s2.len : Int) - s1.len - 1)
    refine ⟨(g1'.trans g3).trans (regs_grow _ _), fun T lp hf => ?_⟩
    have hf := hf.unregs
    simp only [regs_len]
    refine ⟨s1.len, ?_, ?_, ?_⟩
    · simpa using k1 T lp (hf.sub g3 (by simp))
    · have := hf.atB j1 g2 (by omega)
      have hl := hf.len
      simp at hl
      rw [this, t12n (by omega), trunc12_id (by omega) (by omega)]; simp
    · exact k2 T lp (hf.unpatch (by simp; omega) (by simp))
  | elsifm c b ihc ihb =>
    intro arg count reg st st' h hj hw
    simp only [width] at hw
    simp only [comp] at h
    rw [u8_id (by omega)] at h
    have g0 := regs_grow st reg
    have j0 := g0.jok hj
    have gt := asm_grow (st.regs reg) .testjmp (reg+1 : Nat) 0
    rcases ha : comp c false 0 (reg+1) ((st.regs reg).asm .testjmp (reg+1 : Nat) 0) with _ | s1
    · rw [ha] at h; simp at h
    rw [ha] at h; simp only [] at h
    have ⟨g1, k1⟩ := ihc _ _ _ _ _ ha (gt.jok j0) (by omega)
    have g1' := gt.trans g1
    have j1 := g1'.jok j0
    have ga := asm_grow s1 .notjmp (reg+1 : Nat) 0
    rcases hb : comp b false 0 reg (s1.asm .notjmp (reg+1 : Nat) 0) with _ | s2
    · rw [hb] at h; simp at h
    rw [hb] at h; simp only [Option.some.injEq] at h
    subst h
    have ⟨g2, k2⟩ := ihb _ _ _ _ _ hb (ga.jok j1) (by omega)
    have l0 := g1.len
    have l1 := g1'.len
    have l2 := g2.len
    simp at l0 l1 l2
    have gp : Grow (st.regs reg) (s2.patchB (st.regs reg).len ((s2.len : Int) - (st.regs reg).len - 1)) :=
      patchB_grow (g1'.trans (ga.trans g2)) _ (Nat.le_refl _) _
    have g3 : Grow (st.regs reg) ((s2.patchB (st.regs reg).len ((s2.len : Int) - (st.regs reg).len - 1)).patchB s1.len
        (((s2.patchB (st.regs reg).len ((s2.len : Int) - (st.regs reg).len - 1)).len : Int) - s1.len - 1)) :=
      patchB_grow gp _ (by simp; omega) _
    refine ⟨(g0.trans g3).trans (regs_grow _ _), fun T lp hf => ?_⟩
    have hf := hf.unregs
    simp only [regs_len] at hf l1 l2 ⊢
    have hl : s2.len ≤ 2048 := hf.len
    show CodeAt T (.elsifm c b) lp reg st.len s2.len
    refine ⟨?_, s1.len, ?_, ?_, ?_⟩
    · -- the first jump
      have hp : ∀ bs cs, s2.loop = some (bs, cs) → st.len ∉ bs ∧ st.len ∉ cs := by
        refine grow_plain ((g1.trans ga).trans g2) st.len (by simp) ?_
        intro bs cs e
        have ⟨p, q⟩ := j0.1 bs cs e
        exact ⟨fun hk => by have := p _ hk; simp at this, fun hk => by have := q _ hk; simp at this⟩
      rw [hf.code _ (Nat.le_refl _) (by simp; omega), patchB_fin_ne _ _ _ _ _ (by omega), patchB_fin _ _ _ hp]
      have := ((g1.trans ga).trans g2).code st.len (by simp)
      rw [this]
      have := asm_code (st.regs reg) .testjmp (reg+1 : Nat) 0
      simp only [regs_len] at this
      rw [this, t12n (by omega), trunc12_id (by omega) (by omega)]
      simp only [Ins.mk.injEq, true_and]; exact trunc12_id (by omega) (by omega)
    · have := k1 T lp ?_
      · simpa using this
      · refine ⟨fun k h1 h2 => ?_, ?_, ?_, (ga.trans g2).rest.ups.trans hf.ups, (ga.trans g2).rest.protos.trans hf.protos,
          Nat.le_trans (ga.trans g2).rest.stack hf.stack, hf.small, hf.nl, hf.nu, by omega, hf.lpb, ?_⟩
        · simp at h1
          rw [hf.code _ (by omega) (by simp; omega), patchB_fin_ne _ _ _ _ _ (by omega), patchB_fin_ne _ _ _ _ _ (by omega)]
          exact (ga.trans g2).fin lp k h2
        · exact (ga.trans g2).locals.trans hf.locals
        · exact (ga.trans g2).values.trans hf.values
        · intro x; exact hf.lps (by rw [(ga.trans g2).isSome] at x; exact x)
    · have hp : ∀ bs cs, s2.loop = some (bs, cs) → s1.len ∉ bs ∧ s1.len ∉ cs := by
        refine grow_plain g2 s1.len (by simp) ?_
        intro bs cs e
        have ⟨p, q⟩ := j1.1 bs cs e
        exact ⟨fun hk => by have := p _ hk; omega, fun hk => by have := q _ hk; omega⟩
      rw [hf.code _ (by omega) (by simp; omega), patchB_fin (st := s2.patchB st.len _) _ _ _ hp]
      simp only [CSt.patchB]
      rw [if_neg (by omega), g2.code _ (by simp), asm_code, t12n (by omega), trunc12_id (by omega) (by omega)]
      simp only [Ins.mk.injEq, true_and]; exact trunc12_id (by omega) (by omega)
    · refine k2 T lp ⟨fun k h1 h2 => ?_, hf.locals, hf.values, hf.ups, hf.protos, hf.stack, hf.small, hf.nl, hf.nu, hf.len, hf.lpb, hf.lps⟩
      simp at h1
      rw [hf.code _ (by omega) (by simp; omega), patchB_fin_ne _ _ _ _ _ (by omega), patchB_fin_ne _ _ _ _ _ (by omega)]
  | elsem b ihb =>
    intro arg count reg st st' h hj hw
    simp only [width] at hw
    simp only [comp] at h
    rw [u8_id (by omega)] at h
    have g0 := regs_grow st reg
    have j0 := g0.jok hj
    have gt := asm_grow (st.regs reg) .testjmp (reg+1 : Nat) 0
    rcases hb : comp b false 0 reg ((st.regs reg).asm .testjmp (reg+1 : Nat) 0) with _ | s2
    · rw [hb] at h; simp at h
    rw [hb] at h; simp only [Option.some.injEq] at h
    subst h
    have ⟨g2, k2⟩ := ihb _ _ _ _ _ hb (gt.jok j0) (by omega)
    have l2 := g2.len
    simp at l2
    have g3 := patchB_grow (gt.trans g2) (st.regs reg).len (Nat.le_refl _) ((s2.len : Int) - (st.regs reg).len - 1)
    refine ⟨(g0.trans g3).trans (regs_grow _ _), fun T lp hf => ?_⟩
    have hf := hf.unregs
    have e := hf.atB j0 g2 (by simp)
    simp only [regs_len, patchB_len] at *
    have hl := hf.len
    simp at hl
    refine ⟨?_, ?_⟩
    · rw [e, t12n (by omega), trunc12_id (by omega) (by omega)]
    · have := k2 T lp ⟨fun k h1 h2 => ?_, hf.locals, hf.values, hf.ups, hf.protos, hf.stack, hf.small, hf.nl, hf.nu, hf.len, hf.lpb, hf.lps⟩
      · simpa using this
      · simp at h1
        rw [hf.code _ (by omega) (by simp; omega), patchB_fin_ne _ _ _ _ _ (by omega)]
  | whilem c b ihc ihb =>
    intro arg count reg st st' h hj hw
    simp only [width] at hw
    simp only [comp] at h
    rw [u8_id (by omega)] at h
    have g0 := regs_grow st reg
    have j0 := g0.jok hj
    rcases ha : comp c false 0 (reg+1) (st.regs reg) with _ | s1
    · rw [ha] at h; simp at h
    rw [ha] at h; simp only [] at h
    have ⟨g1, k1⟩ := ihc _ _ _ _ _ ha j0 (by omega)
    have j1 := g1.jok j0
    rcases hb : comp b false 0 reg { s1.asm .notjmp (reg+1 : Nat) 0 with loop := some ([], []) } with _ | s3
    · rw [hb] at h; simp at h
    rw [hb] at h; simp only [Option.some.injEq] at h
    have ⟨g3, k3⟩ := ihb _ _ _ _ _ hb ⟨by intro bs cs e; simp at e; simp [e.1, e.2], j1.2⟩ (by omega)
    have l1 := (g0.trans g1).len
    have l3 := g3.len
    simp at l3
    obtain ⟨bs, cs, el, H⟩ := loop_end s1 { s1.asm .notjmp (reg+1 : Nat) 0 with loop := some ([], []) } s3 j1 (st.regs reg).len (by simp)
      (fun k hk => by simp only [CSt.asm]; rw [if_neg (by omega)]) rfl rfl rfl (.of rfl rfl (Nat.le_refl _) rfl rfl) g3
    generalize hs4 : CSt.patchB (s3.asm .jmp (((st.regs reg).len : Int) - s3.len - 1) 0) s1.len
        (((s3.asm .jmp (((st.regs reg).len : Int) - s3.len - 1) 0).len : Int) - s1.len - 1) = s4 at *
    have m4 : s4.len = s3.len + 1 ∧ s4.loop = s3.loop ∧ s4.locals = s3.locals ∧ s4.values = s3.values ∧ Rest s3 s4 := by
      rw [← hs4]; refine ⟨by simp, by simp, by simp, by simp, .of rfl rfl (Nat.le_refl _) rfl rfl⟩
    have ⟨q1, q2, q3, q4, q6, q5⟩ := patchAll_eq bs ((s3.len + 1 : Nat) : Int) s4
    have ⟨r1, r2, r3, r4, r6, r5⟩ := patchAll_eq cs ((st.regs reg).len : Int) (s4.patchAll ((s3.len + 1 : Nat) : Int) bs)
    rw [m4.2.1, el] at h
    simp only [Option.getD_some] at h
    rw [m4.1] at h
    generalize hs5 : ({ CSt.patchAll (s4.patchAll ((s3.len + 1 : Nat) : Int) bs) ((st.regs reg).len : Int) cs with loop := s1.loop } : CSt) = s5 at *
    have R : Rest s3 s5 := m4.2.2.2.2.trans (by
      rw [← hs5]
      exact .of (by simp only []; rw [r6.1, q6.1]) (by simp only []; rw [r6.2.1, q6.2.1]) (Nat.le_of_eq (by simp only []; rw [r6.2.2.1, q6.2.2.1]))
        (by simp only []; rw [r3, q3]) (by simp only []; rw [r6.2.2.2.1, q6.2.2.2.1]))
    have v1 : s5.len = s3.len + 1 := by rw [← hs5]; simp only []; rw [r1, q1, m4.1]
    have ⟨G, e1, e2, e3⟩ := H s4.code s5
      (fun k hk => by
        rw [← hs4]; simp only [CSt.patchB]; rw [if_neg (by simp at hk; omega)])
      v1
      (by rw [← hs5]; simp only []; rw [r3, q3, m4.2.2.1]) (by rw [← hs5]; simp only []; rw [r4, q4, m4.2.2.2.1]) R
      (fun k => by
        rw [← hs5]; simp only []
        rw [r5, q5]; split <;> split <;> simp)
      (by rw [← hs5])
    have h : s5.regs (reg+1) = st' := by
      rw [← h]
    subst h
    refine ⟨(g0.trans g1).trans (G.trans (regs_grow _ _)), fun T lp hf => ?_⟩
    have hf := hf.unregs
    have hlen := hf.len
    simp only [regs_len] at *
    rw [v1] at hlen ⊢
    refine ⟨s1.len, s3.len, ?_, ?_, ?_, ?_, rfl⟩
    · exact k1 T lp (hf.sub G (Nat.le_refl _))
    · rw [hf.code _ l1 (by omega), e2 lp _ (Nat.le_refl _) (by simp), ← hs4]
      simp only [CSt.patchB, if_true, asm_len]
      have : (s3.asm .jmp ((st.len : Int) - s3.len - 1) 0).code s1.len = (s1.asm .notjmp (reg+1 : Nat) 0).code s1.len := by
        have := g3.code s1.len (by simp)
        simp only [CSt.asm] at this ⊢
        rw [if_neg (by omega), this]
      rw [this, asm_code, t12n (by omega)]
      simp only [Ins.mk.injEq, true_and]; exact trunc12_id (by omega) (by omega)
    · have := k3 T (some (s3.len + 1, st.len)) ⟨fun k h1 h2 => ?_, ?_, ?_, R.ups.trans hf.ups, R.protos.trans hf.protos,
        Nat.le_trans R.stack hf.stack, hf.small, hf.nl, hf.nu, by omega, ?_, by simp⟩
      · simpa using this
      · simp at h1
        rw [hf.code k (by omega) (by omega), e3 lp k (by simpa using h1) h2]
      · have := hf.locals
        rwa [← hs5, r3, q3, m4.2.2.1] at this
      · have := hf.values
        rwa [← hs5, r4, q4, m4.2.2.2.1] at this
      · intro bt ct e
        simp at e; omega
    · rw [hf.code _ (by omega) (by omega), e1, trunc12_id (by omega) (by omega)]
  | loopm b ihb =>
    intro arg count reg st st' h hj hw
    simp only [width] at hw
    simp only [comp] at h
    rw [u8_id (by omega)] at h
    have g0 := regs_grow st reg
    have j0 := g0.jok hj
    generalize hs1 : st.regs reg = s1 at *
    have hl1 : s1.len = st.len := by rw [← hs1]; simp
    rcases hb : comp b false 0 reg { s1 with loop := some ([], []) } with _ | s3
    · rw [hb] at h; simp at h
    rw [hb] at h; simp only [Option.some.injEq] at h
    have ⟨g3, k3⟩ := ihb _ _ _ _ _ hb ⟨by intro bs cs e; simp at e; simp [e.1, e.2], j0.2⟩ (by omega)
    have l3 := g3.len
    simp only [] at l3
    obtain ⟨bs, cs, el, H⟩ := loop_end s1 { s1 with loop := some ([], []) } s3 j0 s1.len (by simp)
      (fun k hk => rfl) rfl rfl rfl (.of rfl rfl (Nat.le_refl _) rfl rfl) g3
    generalize hs4 : s3.asm .jmp ((s1.len : Int) - s3.len - 1) 0 = s4 at *
    have m4 : s4.len = s3.len + 1 ∧ s4.loop = s3.loop ∧ s4.locals = s3.locals ∧ s4.values = s3.values ∧ Rest s3 s4 := by
      rw [← hs4]; refine ⟨by simp, by simp, by simp, by simp, .of rfl rfl (Nat.le_refl _) rfl rfl⟩
    have ⟨q1, q2, q3, q4, q6, q5⟩ := patchAll_eq bs ((s3.len + 1 : Nat) : Int) s4
    have ⟨r1, r2, r3, r4, r6, r5⟩ := patchAll_eq cs (s1.len : Int) (s4.patchAll ((s3.len + 1 : Nat) : Int) bs)
    rw [m4.2.1, el] at h
    simp only [Option.getD_some] at h
    rw [m4.1] at h
    generalize hs5 : ({ CSt.patchAll (s4.patchAll ((s3.len + 1 : Nat) : Int) bs) (s1.len : Int) cs with loop := s1.loop } : CSt) = s5 at *
    have R : Rest s3 s5 := m4.2.2.2.2.trans (by
      rw [← hs5]
      exact .of (by simp only []; rw [r6.1, q6.1]) (by simp only []; rw [r6.2.1, q6.2.1]) (Nat.le_of_eq (by simp only []; rw [r6.2.2.1, q6.2.2.1]))
        (by simp only []; rw [r3, q3]) (by simp only []; rw [r6.2.2.2.1, q6.2.2.2.1]))
    have v1 : s5.len = s3.len + 1 := by rw [← hs5]; simp only []; rw [r1, q1, m4.1]
    have ⟨G, e1, e2, e3⟩ := H s4.code s5
      (fun k hk => rfl)
      v1
      (by rw [← hs5]; simp only []; rw [r3, q3, m4.2.2.1]) (by rw [← hs5]; simp only []; rw [r4, q4, m4.2.2.2.1]) R
      (fun k => by
        rw [← hs5]; simp only []
        rw [r5, q5]; split <;> split <;> simp)
      (by rw [← hs5])
    have h : s5.regs (reg+1) = st' := by
      rw [← h]
    subst h
    refine ⟨g0.trans (G.trans (regs_grow _ _)), fun T lp hf => ?_⟩
    have hf := hf.unregs
    have hlen := hf.len
    simp only [regs_len] at *
    rw [v1] at hlen ⊢
    rw [← hl1] at hf ⊢
    refine ⟨s3.len, ?_, ?_, rfl⟩
    · have := k3 T (some (s3.len + 1, s1.len)) ⟨fun k h1 h2 => ?_, ?_, ?_, R.ups.trans hf.ups, R.protos.trans hf.protos,
        Nat.le_trans R.stack hf.stack, hf.small, hf.nl, hf.nu, by omega, ?_, by simp⟩
      · simpa using this
      · rw [hf.code k h1 (by omega), e3 lp k h1 h2]
      · have := hf.locals
        rwa [← hs5, r3, q3, m4.2.2.1] at this
      · have := hf.values
        rwa [← hs5, r4, q4, m4.2.2.2.1] at this
      · intro bt ct e
        simp at e; omega
    · rw [hf.code _ (by omega) (by omega), e1]
      simp only [Ins.mk.injEq, true_and]; exact ⟨trunc12_id (by omega) (by omega), trivial⟩
  | retv a iha =>
    intro arg count reg st st' h hj hw
    simp only [width] at hw
    simp only [comp] at h
    rcases ha : comp a false 0 reg (st.regs reg) with _ | s1
    · rw [ha] at h; simp at h
    rw [ha] at h; simp only [Option.some.injEq] at h
    subst h
    have ⟨g1, k1⟩ := iha _ _ _ _ _ ha ((regs_grow st reg).jok hj) (by omega)
    have g1' := (regs_grow st reg).trans g1
    have j1 := g1'.jok hj
    have l1 := g1'.len
    have g3 := asm_grow s1 .ret reg 0
    refine ⟨g1'.trans g3, fun T lp hf => ⟨s1.len, ?_, ?_, rfl⟩⟩
    · simpa using k1 T lp (hf.sub g3 (by simp))
    · have := hf.at (st := s1) j1 (Grow.refl _) (by omega)
      rw [this, t12n (by omega)]; rfl
  | ret0 =>
    intro arg count reg st st' h hj hw
    simp only [width] at hw
    simp only [comp, Option.some.injEq] at h
    subst h
    have g0 := regs_grow st reg
    have j0 := g0.jok hj
    have g1 := asm_grow (st.regs reg) .loadpn reg 0
    have g2 := asm_grow ((st.regs reg).asm .loadpn reg 0) .ret reg 0
    refine ⟨(g0.trans g1).trans g2, fun T lp hf => ⟨?_, ?_, by simp⟩⟩
    · have := hf.at (st := st.regs reg) j0 g2 (by simp)
      simp only [regs_len] at this
      rw [this, t12n (by omega)]; rfl
    · have := hf.at (st := (st.regs reg).asm .loadpn reg 0) (g1.jok j0) (Grow.refl _) (by simp)
      simp only [regs_len, asm_len] at this
      rw [this, t12n (by omega)]; rfl
  | brk =>
    intro arg count reg st st' h hj hw
    simp only [width] at hw
    simp only [comp] at h
    have g0 := regs_grow st reg
    rcases hl : st.loop with _ | ⟨bs, cs⟩
    · simp [hl] at h
    simp only [regs_loop, hl] at h
    split at h
    · simp only [Option.some.injEq] at h
      subst h
      have ⟨p, q⟩ := hj.1 bs cs hl
      have ga := asm_grow (st.regs reg) .jmp 0 0
      refine ⟨⟨by simp, fun k hk => ?_, ?_, ?_, ?_, g0.rest.trans (.of rfl rfl (Nat.le_refl _) rfl rfl), .inr ⟨bs, cs, [st.len], [], hl, by simp, by simp, by simp⟩⟩,
        fun T lp hf => ⟨by simp, ?_⟩⟩
      · simpa using ga.code k (by simpa using hk)
      · simp
      · simp
      · simp
      · have := hf.lps (by simp)
        rcases lp with _ | ⟨bt, ct⟩
        · simp at this
        have ⟨b1, b2⟩ := hf.lpb _ _ rfl
        have hlen := hf.len
        simp at hlen
        refine ⟨bt, ct, rfl, ?_⟩
        have n2 : st.len ∉ cs := fun hk => by have := q _ hk; omega
        rw [hf.code _ (Nat.le_refl _) (by simp)]
        have e := asm_code (st.regs reg) .jmp 0 0
        simp only [regs_len] at e
        simp [fin, n2, e, trunc12_id (show (-2048:Int) ≤ (bt:Int) - st.len - 1 by omega) (by omega)]
        rfl
    · simp at h
  | cont =>
    intro arg count reg st st' h hj hw
    simp only [width] at hw
    simp only [comp] at h
    have g0 := regs_grow st reg
    rcases hl : st.loop with _ | ⟨bs, cs⟩
    · simp [hl] at h
    simp only [regs_loop, hl] at h
    split at h
    · simp only [Option.some.injEq] at h
      subst h
      have ⟨p, q⟩ := hj.1 bs cs hl
      have ga := asm_grow (st.regs reg) .jmp 0 0
      refine ⟨⟨by simp, fun k hk => ?_, ?_, ?_, ?_, g0.rest.trans (.of rfl rfl (Nat.le_refl _) rfl rfl), .inr ⟨bs, cs, [], [st.len], hl, by simp, by simp, by simp⟩⟩,
        fun T lp hf => ⟨by simp, ?_⟩⟩
      · simpa using ga.code k (by simpa using hk)
      · simp
      · simp
      · simp
      · have := hf.lps (by simp)
        rcases lp with _ | ⟨bt, ct⟩
        · simp at this
        have ⟨b1, b2⟩ := hf.lpb _ _ rfl
        have hlen := hf.len
        simp at hlen
        refine ⟨bt, ct, rfl, ?_⟩
        rw [hf.code _ (Nat.le_refl _) (by simp)]
        have e := asm_code (st.regs reg) .jmp 0 0
        simp only [regs_len] at e
        simp [fin, e, trunc12_id (show (-2048:Int) ≤ (ct:Int) - st.len - 1 by omega) (by omega)]
        rfl
    · simp at h
  | self =>
    intro arg count reg st st' h hj hw
    simp only [width] at hw
    simp only [comp, Option.some.injEq] at h
    subst h
    have g0 := regs_grow st reg
    have j0 := g0.jok hj
    refine ⟨g0.trans (asm_grow _ _ _ _), fun T lp hf => ⟨by simp, ?_⟩⟩
    have := hf.at (st := st.regs reg) j0 (Grow.refl _) (by simp)
    simp only [regs_len] at this
    rw [this, t12n (by omega)]; rfl
  | fn ps b ihb =>
    intro arg count reg st st' h hj hw
    simp only [width] at hw
    simp only [comp] at h
    have g0 := regs_grow st reg
    have j0 := g0.jok hj
    have l0 : (st.regs reg).len = st.len := regs_len _ _
    generalize st.regs reg = s0 at *
    rcases hb : comp b false 0 0 (CSt.open ps ((s0.locals, s0.upvals) :: s0.outer) (s0.next + 1)) with _ | g
    · rw [hb] at h; simp at h
    rw [hb] at h; simp only [] at h
    have jo : JOk (CSt.open ps ((s0.locals, s0.upvals) :: s0.outer) (s0.next + 1)) :=
      ⟨by intro bs cs e; simp [CSt.open, CSt.new] at e, by simp [CSt.open, CSt.new], j0.2⟩
    have ⟨G, K⟩ := ihb _ _ _ _ _ hb jo (by omega)
    have Lk := (G.jok jo).2
    have fo := G.rest.outer
    rcases ho : g.outer with _ | ⟨⟨ls, us⟩, out⟩
    · rw [ho] at h; simp at h
    rw [ho] at h; simp only [Option.some.injEq] at h
    unfold CSt.chain at Lk
    rw [ho] at Lk fo
    simp only [CSt.open] at fo
    obtain ⟨⟨e1, e2⟩, fo'⟩ := List.forall₂_cons.1 fo
    simp only [] at e1 e2
    subst e1
    have lk1 := Lk.1
    have lk2 := Lk.2
    generalize hs1 : ({ s0 with upvals := us, outer := out, protos := s0.protos ++ [g.close s0.next ps], next := g.next } : CSt) = s1 at *
    have l1 : s1.len = st.len := by rw [← hs1]; exact l0
    have pe : s1.protos = s0.protos ++ [g.close s0.next ps] := by rw [← hs1]
    rw [← pe] at h
    have u1 : s1.upvals = us := by rw [← hs1]
    have v1 : s1.locals = s0.locals := by rw [← hs1]
    have g1 : Grow s0 s1 := by
      have := Grow.refl s0
      rw [← hs1]
      exact ⟨this.len, this.code, this.locals, this.nodup, this.values,
        ⟨e2, List.prefix_append _ _, Nat.le_refl _, fun _ => lk2, fo'⟩, this.loop⟩
    have j1 := g1.jok j0
    have ga := asm_grow s1 .proto reg (s1.protos.length - 1 : Nat)
    have ⟨g2, l2, k2⟩ := captures_spec reg g.upvals (s1.asm .proto reg (s1.protos.length - 1 : Nat)) (ga.jok j1) (by
      intro x hx
      have := (lk1 x hx).2
      rw [asm_upvals, asm_locals, u1, v1]; exact this.symm)
    subst h
    refine ⟨(g0.trans g1).trans (ga.trans g2), fun T lp hf => ?_⟩
    have pr : s1.protos <+: T.f.protos := (ga.trans g2).rest.protos.trans hf.protos
    have pl : s1.protos.length = s0.protos.length + 1 := by rw [pe]; simp
    have hp := (hf.small _ (.self _)).2.2.1
    have := pr.length_le
    have at? : T.f.protos[s0.protos.length]? = some (g.close s0.next ps) := by
      obtain ⟨tl, e⟩ := pr
      rw [← e, pe]; simp
    have sm : Small (g.close s0.next ps) := hf.small.sub (List.mem_of_getElem? at?)
    have sm0 := sm _ (.self _)
    have gl : (g.close s0.next ps).len = g.len + 1 := rfl
    have gloop : g.loop = none := by
      rcases G.loop with ⟨_, y⟩ | ⟨b1, c1, _, _, e, _⟩
      · exact y
      · simp [CSt.open, CSt.new] at e
    refine ⟨s0.protos.length, ⟨g.close s0.next ps, g.locals, g.upvals⟩, g.len, ?_, at?, ?_, ?_, ?_, ?_⟩
    · have := hf.at (st := s1) j1 g2 (by omega)
      rw [l1] at this
      rw [this, t12n (by omega), t12n (by omega), pl]; simp
    · refine ⟨rfl, rfl, G.nodup (params_nodup ps [] List.nodup_nil), G.locals, rfl, rfl, fun x hx => (lk1 x hx).1, rfl, ?_⟩
      exact asm_code g .ret 0 0
    · refine K _ none ⟨fun k h1 h2 => ?_, List.prefix_refl _, List.prefix_refl _, List.prefix_refl _, List.prefix_refl _, Nat.le_refl _, sm,
        sm0.2.2.2.1, sm0.2.2.2.2, by omega, by simp, by simp [gloop]⟩
      show (g.asm .ret 0 0).code k = _
      simp only [CSt.asm, fin, gloop]
      rw [if_neg (by omega)]
    · rw [l2]; simp [l1]
    · intro j x hx
      have := k2 T lp _ hf (by simp; omega) (by omega) j x hx
      simpa [l1] using this
  | call x as iha =>
    intro arg count reg st st' h hj hw
    simp only [width] at hw
    simp only [comp] at h
    split at h
    · have g0 := regs_grow st reg
      rcases hl : (st.regs reg).look x with _ | ⟨s1, up, num⟩
      · rw [hl] at h; simp at h
      rw [hl] at h
      simp only [] at h
      have ⟨sm, g1, _, hv⟩ := look_spec hl
      have g2 := g0.trans g1
      have l1 : s1.len = st.len := by rw [sm.len]; simp
      have ac := argc_le as
      rw [u8_id (show reg + 2 ≤ 255 by omega), u8_id (show reg + 1 ≤ 255 by omega), u8_id (show reg + 1 + argc as ≤ 255 by omega)] at h
      have ga := asm_grow s1 (getOp up) reg num
      have gb := asm_grow (s1.asm (getOp up) reg num) .self (reg+1 : Nat) 0
      have j1 := g2.jok hj
      have ja := ga.jok j1
      rcases ha : comp as false 0 (reg+2) ((s1.asm (getOp up) reg num).asm .self (reg+1 : Nat) 0) with _ | s2
      · rw [ha] at h; simp at h
      rw [ha] at h; simp only [Option.some.injEq] at h
      have ⟨g3, k3⟩ := iha _ _ _ _ _ ha (gb.jok ja) (by omega)
      have l3 := g3.len
      simp at l3
      subst h
      have gc := asm_grow s2 .call reg (reg + 1 + argc as : Nat)
      have gd := regs_grow (s2.asm .call reg (reg + 1 + argc as : Nat)) (reg + 1 + argc as)
      refine ⟨((g2.trans ga).trans (gb.trans g3)).trans (gc.trans gd), fun T lp hf => ⟨⟨up, num, ?_, ?_⟩, ?_, ?_, s2.len, ?_, ?_, by simp⟩⟩
      · exact (hf.var (((ga.trans gb).trans g3).trans (gc.trans gd)) hv).1
      · have ⟨w1, w2⟩ := hf.var (((ga.trans gb).trans g3).trans (gc.trans gd)) hv
        have := hf.at (st := s1) j1 ((gb.trans g3).trans (gc.trans gd)) (by omega)
        rw [l1] at this
        rw [this, t12n (by omega), t12n w2]
      · have := hf.at (st := s1.asm (getOp up) reg num) ja (g3.trans (gc.trans gd)) (by simp; omega)
        simp only [asm_len, l1] at this
        rw [this, t12n (by omega)]; rfl
      · have := regs_lt (s2.asm .call reg (reg + 1 + argc as : Nat)) (reg + 1 + argc as)
        have := hf.stack
        omega
      · have := k3 T lp (hf.sub (gc.trans gd) (by simp; omega))
        simpa [l1] using this
      · have := hf.at (st := s2) (g3.jok (gb.jok ja)) gd (by omega)
        rw [this, t12n (by omega), t12n (by omega)]
    · simp at h
  | anil =>
    intro arg count reg st st' h hj hw
    simp only [comp, Option.some.injEq] at h
    subst h
    exact ⟨Grow.refl _, fun T lp hf => by simp [CodeAt]⟩
  | acons a as iha ihb =>
    intro arg count reg st st' h hj hw
    simp only [width] at hw
    simp only [comp] at h
    split at h
    · simp at h
    rcases ha : comp a false 0 reg st with _ | s1
    · rw [ha] at h; simp at h
    rw [ha] at h; simp only [] at h
    rw [u8_id (show reg + 1 ≤ 255 by omega)] at h
    have ⟨g1, k1⟩ := iha _ _ _ _ _ ha hj (by omega)
    have ⟨g2, k2⟩ := ihb _ _ _ _ _ h (g1.jok hj) (by omega)
    exact ⟨g1.trans g2, fun T lp hf => ⟨s1.len, k1 T lp (hf.sub g2 (Nat.le_refl _)), k2 T lp (hf.sub (Grow.refl _) g1.len)⟩⟩

end Potion.Compile
