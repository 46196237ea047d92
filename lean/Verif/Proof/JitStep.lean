import Verif.Proof.JitSim
import Verif.Proof.JitDiv
import Verif.Proof.Word
/-!
One instruction of the interpreter and the machine code for it.
-/
namespace Potion.Jit
open Potion Potion.X86 Potion.Vm

/-! ### Arithmetic -/

def exactOf (op : AOp) (a b : Int) : Int := match op with
  | .add => a + b
  | .sub => a - b
  | _ => a * b

theorem vmMath3_imm {D : Type} {op : AOp} {F : Int → D} {G : D → D → D} {x y w : PN} (h : vmMath3 op F G x y = .imm w) :
    w = pnNum (exactOf op (pnInt x) (pnInt y)) ∧ Fits63 (exactOf op (pnInt x) (pnInt y)) := by
  unfold vmMath3 at h
  dsimp only at h
  split at h
  · cases h
  · rename_i hc
    cases h
    have e : builtinOverflow op (pnInt x) (pnInt y) =
        (!decide (FitsLong (exactOf op (pnInt x) (pnInt y))), Int.bmod (exactOf op (pnInt x) (pnInt y)) (2^64)) := rfl
    rw [e] at hc ⊢
    generalize exactOf op (pnInt x) (pnInt y) = z at *
    simp only [Bool.or_eq_true, Bool.not_eq_true', decide_eq_false_iff_not, decide_eq_true_eq, not_or, Decidable.not_not] at hc
    obtain ⟨⟨h1, h2⟩, h3⟩ := hc
    have b1 : pnInt LONG_MAX = 2^62 - 1 := by decide
    have b2 : pnInt LONG_MIN = -(2^62) := by decide
    rw [b1] at h2
    rw [b2] at h3
    have hb : Int.bmod z (2^64) = z := by unfold FitsLong at h1; simp only [Int.bmod]; omega
    rw [hb] at h2 h3 ⊢
    exact ⟨rfl, by unfold Fits63; omega⟩

theorem jitAdd_eq {x y : PN} (hx : isInt x = true) (hy : isInt y = true) : jitAdd x y = pnNum (pnInt x + pnInt y) := by
  apply BitVec.eq_of_toInt_eq
  rw [pnNum_toInt]
  unfold jitAdd
  rw [BitVec.toInt_sub, BitVec.toInt_add, toInt_of_isInt hx, toInt_of_isInt hy]
  simp only [BitVec.toInt_one (show 1 < 64 by omega), Int.bmod]
  omega

theorem jitSub_eq {x y : PN} (hx : isInt x = true) (hy : isInt y = true) (h : Fits63 (pnInt x - pnInt y)) :
    FitsLong (x.toInt - y.toInt) ∧ x - y + 1#64 = pnNum (pnInt x - pnInt y) := by
  have ex := toInt_of_isInt hx
  have ey := toInt_of_isInt hy
  unfold Fits63 at h
  refine ⟨by rw [ex, ey]; unfold FitsLong; omega, ?_⟩
  apply BitVec.eq_of_toInt_eq
  rw [pnNum_toInt, BitVec.toInt_add, BitVec.toInt_sub, ex, ey]
  simp only [BitVec.toInt_one (show 1 < 64 by omega), Int.bmod]
  omega

theorem jitMult_eq {x y : PN} (hx : isInt x = true) (h : Fits63 (pnInt x * pnInt y)) :
    FitsLong ((x - 1#64).toInt * (y.sshiftRight 1).toInt) ∧ (x - 1#64) * y.sshiftRight 1 + 1#64 = pnNum (pnInt x * pnInt y) := by
  have ex := toInt_of_isInt hx
  have fx := pnInt_fits x
  have h1 : (x - 1#64).toInt = 2 * pnInt x := by
    unfold Fits63 at fx
    rw [BitVec.toInt_sub, ex]
    simp only [BitVec.toInt_one (show 1 < 64 by omega), Int.bmod]
    omega
  have h2 : (y.sshiftRight 1).toInt = pnInt y := rfl
  unfold Fits63 at h
  rw [h1, h2, Int.mul_assoc]
  refine ⟨by unfold FitsLong; omega, ?_⟩
  apply BitVec.eq_of_toInt_eq
  rw [pnNum_toInt, BitVec.toInt_add, BitVec.toInt_mul, h1, h2, Int.mul_assoc]
  simp only [BitVec.toInt_one (show 1 < 64 by omega), Int.bmod]
  omega

theorem jitBitn_eq {x : PN} (hx : isInt x = true) : jitBitn x = numBitn x := by
  have e : numBitn x = pnNum (-pnInt x - 1) := by
    unfold numBitn
    rfl
  rw [e]
  apply BitVec.eq_of_toInt_eq
  rw [pnNum_toInt]
  unfold jitBitn
  rw [← BitVec.neg_eq_not_add, BitVec.toInt_neg, toInt_of_isInt hx]
  simp only [Int.bmod]
  omega

theorem cmp_eq {x y : PN} (h : x.msb = y.msb) :
    decide (x.toNat < y.toNat) = decide (x.toInt < y.toInt) ∧ decide (x.toNat ≤ y.toNat) = decide (x.toInt ≤ y.toInt) ∧
    decide (x.toNat > y.toNat) = decide (x.toInt > y.toInt) ∧ decide (x.toNat ≥ y.toNat) = decide (x.toInt ≥ y.toInt) := by
  have hx := x.isLt
  have hy := y.isLt
  have e : x.toInt - y.toInt = (x.toNat : Int) - y.toNat := by
    rw [BitVec.toInt_eq_msb_cond, BitVec.toInt_eq_msb_cond, h]
    split <;> omega
  refine ⟨?_, ?_, ?_, ?_⟩ <;> apply decide_eq_decide.mpr <;> omega

/-! ### Steps -/

theorem plain_pos {E : Env} {f : Proto} {i : Ins} {bs : List Byte} (h : plain E f i = some bs) : 0 < bs.length := by
  unfold plain at h
  dsimp only at h
  split at h <;> first
    | (cases h
       simp only [math, numcmp, testAsm, List.length_append, List.length_cons, movRbp_length, movRbpDx_length, movq_length,
         argO_length, callC_length]
       have := ldLen_cases i.a
       have := ldLen_cases i.b
       omega)
    | cases h

variable {E : Env} {f : Proto} {loc : Nat → PN} {H : PN → Prop} {cl tup bp : PN} {ext : Ext} {code : List Byte}
  {sv : PN × PN × PN × PN × PN} {top : PN → PN} {word : PN → Prop}

theorem Rep.imm {x w : PN} (h : Rep loc (.imm x) w) : w = x := h

theorem hasUpvals_false (hf : Simple f) : hasUpvals f = false := by
  unfold hasUpvals
  rw [List.any_eq_false]
  intro g hg
  have := hf.inner g hg
  simp [this]

section
variable {s t : State} {m : Mach}

/-- A step that stores the result of `plain` code in a register. -/
theorem Sim.plainReg (v : Sim E f loc H cl tup bp sv top s m) (hf : Simple f) {a : Int} (ha : IsReg f a) {val : Val} {w : PN}
    {bs : List Byte} (hj : jump (f.code s.pos) = none) (hp : plain E f (f.code s.pos) = some bs)
    (hl : Leads (f.code s.pos) s.pos (s.pos + 1 : Nat)) (ht : s.setReg a val = .run t)
    (hr : Rep loc val w) (hv : NoRef s.heap val)
    (r : Reach ext code (at_ m (off E f s.pos)) (Wrote H m (off E f s.pos + bs.length) a w)) :
    Reach1 ext code m (Sim E f loc H cl tup bp sv top t) := by
  have em : m = at_ m (off E f s.pos) := by rw [← v.rip]; rfl
  rw [em]
  have := plain_pos hp
  refine (r.one ?_).mono fun m' hw => v.setReg hf ha ht hl (off_plain hj hp) hw hr hv
  intro m' hw
  rw [hw.1]
  show _ ≠ off E f s.pos
  omega

theorem math_imm {op : AOp} {i : Ins} (h : s.math op true i = .run t) (hh : t.heap = s.heap) :
    ∃ x y, s.rd s.rbase i.a = some (.imm x) ∧ s.rd s.rbase i.b = some (.imm y) ∧ isInt x = true ∧ isInt y = true ∧
      Fits63 (exactOf op (pnInt x) (pnInt y)) ∧ s.setReg i.a (.imm (pnNum (exactOf op (pnInt x) (pnInt y)))) = .run t := by
  unfold State.math at h
  split at h
  · rename_i x y hx hy
    split at h
    · rename_i hi
      simp only [Bool.and_eq_true] at hi
      simp only [if_true] at h
      split at h
      · rename_i w hw
        obtain ⟨e, hf⟩ := vmMath3_imm hw
        rw [e] at h
        exact ⟨x, y, hx, hy, hi.1, hi.2, hf, h⟩
      · rename_i d hd
        unfold State.setReg at h
        split at h
        · cases h
        · rename_i s' hs'
          cases h
          exfalso
          have : s'.heap = s.heap ++ [.dbl op d.1 d.2] := by
            unfold State.wr at hs'
            split at hs'
            · cases hs'; rfl
            · cases hs'
          have hh : s'.heap = s.heap := hh
          rw [this] at hh
          have := congrArg List.length hh
          simp at this
    · cases h
  · cases h

theorem math2_imm {op : AOp} {i : Ins} (h : s.math op false i = .run t) :
    ∃ x y z, s.rd s.rbase i.a = some (.imm x) ∧ s.rd s.rbase i.b = some (.imm y) ∧ isInt x = true ∧ isInt y = true ∧
      cArith op (pnInt x) (pnInt y) = some z ∧ s.setReg i.a (.imm (pnNum z)) = .run t := by
  unfold State.math at h
  split at h
  · rename_i x y hx hy
    split at h
    · rename_i hi
      simp only [Bool.and_eq_true] at hi
      rw [if_neg (by decide)] at h
      split at h
      · rename_i w hw
        unfold vmMath2 at hw
        obtain ⟨z, hz, rfl⟩ := Option.map_eq_some_iff.1 hw
        exact ⟨x, y, z, hx, hy, hi.1, hi.2, hz, h⟩
      · cases h
    · cases h
  · cases h

theorem ncmp_imm {c : COp} {i : Ins} (h : s.ncmp c i = .run t) :
    ∃ x y, s.rd s.rbase i.a = some (.imm x) ∧ s.rd s.rbase i.b = some (.imm y) ∧ isInt x = true ∧ isInt y = true ∧
      s.setReg i.a (.imm (vmNumCmp c x y)) = .run t := by
  unfold State.ncmp at h
  split at h
  · rename_i x y hx hy
    split at h
    · rename_i hi
      simp only [Bool.and_eq_true] at hi
      exact ⟨x, y, hx, hy, hi.1, hi.2, h⟩
    · cases h
  · cases h

theorem veq_imm {c : Bool} {i : Ins} (h : s.veq c i = .run t) :
    ∃ x y, s.rd s.rbase i.a = some (.imm x) ∧ s.rd s.rbase i.b = some (.imm y) ∧
      s.setReg i.a (.imm (pnBool ((x == y) == c))) = .run t := by
  unfold State.veq at h
  split at h
  · rename_i x y hx hy
    exact ⟨x, y, hx, hy, h⟩
  · cases h

theorem step_run_eq (v : Sim E f loc H cl tup bp sv top s m) : s.step = .run t →
    ∃ i, f.code s.pos = i ∧ s.f.code s.pos = i ∧ s.pos < s.f.len := fun _ =>
  ⟨_, rfl, by rw [v.fn], by rw [v.fn]; exact v.pos⟩

/-- The displacement of a jump fits, and where it leads. -/
theorem laid_disp (hL : Laid E f code) (hf : Simple f) {j : Nat} (hj : j < f.len) {pre : List Byte} {d : Int} (e : jump (f.code j) = some (pre, d))
    (hl : Leads (f.code j) j (j + d + 1)) :
    (-(2^31) ≤ dispOf E f j d ∧ dispOf E f j d < 2^31) ∧
    (off E f ((j : Int) + d + 1).toNat : Int) = off E f j + (pre.length + 4 : Nat) + dispOf E f j d := by
  have h1 := flow_lt hf hj hl
  have h2 := off_mono (E := E) (f := f) (show ((j : Int) + d + 1).toNat ≤ f.len by omega)
  have h3 := off_mono (E := E) (f := f) (show j + 1 ≤ f.len by omega)
  have h4 := hL.len
  have h5 := hL.small
  have h6 := off_jump (E := E) e
  unfold dispOf
  omega

theorem step_sim (hf : Simple f) (hL : Laid E f code) (hH : Helpers E ext H cl tup word)
    (v : Sim E f loc H cl tup bp sv top s m) (hT : Tame word s) (h : s.step = .run t) :
    Reach1 ext code m (Sim E f loc H cl tup bp sv top t) := by
  obtain ⟨i, hi, hi', hlen⟩ := step_run_eq v h
  have ops := hf.ops s.pos v.pos
  have hpl := hL.plain s.pos v.pos
  have hju := hL.jump s.pos v.pos
  have hno := hasUpvals_false hf
  have em : m = at_ m (off E f s.pos) := by rw [← v.rip]; rfl
  have hT' := hT
  unfold Tame at hT'
  have h0 := h
  unfold State.step at h0
  rw [if_pos hlen] at h0
  rw [hi'] at h0 hT'
  rw [hi] at ops hpl hju
  unfold Operands at ops
  dsimp only at h0 hT'
  have IF : ∀ {x : Int}, IsReg f x → InFrame x := fun h => inFrame_of hf (reg_need h).1 (reg_need h).2
  have i3 : InFrame (need f - 3) := inFrame_of hf (by unfold need; omega) (by unfold need; omega)
  have i2 : InFrame (need f - 2) := inFrame_of hf (by unfold need; omega) (by unfold need; omega)
  have hP : m.mem (slot (m.regs 5) (need f - 3)) = E.P := by rw [v.rbp]; exact v.P
  have hcl : m.mem (slot (m.regs 5) (need f - 2)) = cl := by rw [v.rbp]; exact v.cl
  cases hop : i.op <;> simp only [hop] at ops h0 hT'
  case move =>
    have hj : jump i = none := by simp only [jump, hop]
    have hl : Leads (f.code s.pos) s.pos (s.pos + 1 : Nat) := by rw [hi]; simp only [Leads, hop]; omega
    obtain ⟨bs, hp, hat⟩ := hpl hj
    have hp' : plain E f (f.code s.pos) = some bs := by rw [hi]; exact hp
    have hj' : jump (f.code s.pos) = none := by rw [hi]; exact hj
    simp only [plain, hop] at hp
    obtain rfl := Option.some.inj hp
    obtain ⟨ha, hb⟩ := ops
    split at h0
    · rename_i x hx
      obtain ⟨r1, r2⟩ := v.regRep hb hx
      exact v.plainReg hf ha hj' hp' hl h0 r1 r2 (move_run v.hal (IF ha) (IF hb) hat)
    · cases h0
  case loadk =>
    have hj : jump i = none := by simp only [jump, hop]
    have hl : Leads (f.code s.pos) s.pos (s.pos + 1 : Nat) := by rw [hi]; simp only [Leads, hop]; omega
    obtain ⟨bs, hp, hat⟩ := hpl hj
    have hp' : plain E f (f.code s.pos) = some bs := by rw [hi]; exact hp
    have hj' : jump (f.code s.pos) = none := by rw [hi]; exact hj
    simp only [plain, hop] at hp
    obtain rfl := Option.some.inj hp
    obtain ⟨ha, hb2⟩ := ops
    split at h0
    · rename_i w hw
      rw [v.fn] at hw
      by_cases hb : 0 ≤ i.b
      · rw [if_pos hb] at hw
        obtain ⟨c1, c2⟩ := v.consts.word _ _ hw
        rw [show ((i.b.toNat : Nat) : Int) = i.b by omega] at c1 c2
        exact v.plainReg hf ha hj' hp' hl h0 rfl trivial
          (loadk_run hH v.hal v.h16 (IF ha) i3 i2 ⟨hb, by omega⟩ hP hcl v.consts.al c1 c2 hat)
      · rw [if_neg hb] at hw; cases hw
    · cases h0
  case loadpn =>
    have hj : jump i = none := by simp only [jump, hop]
    have hl : Leads (f.code s.pos) s.pos (s.pos + 1 : Nat) := by rw [hi]; simp only [Leads, hop]; omega
    obtain ⟨bs, hp, hat⟩ := hpl hj
    have hp' : plain E f (f.code s.pos) = some bs := by rw [hi]; exact hp
    have hj' : jump (f.code s.pos) = none := by rw [hi]; exact hj
    simp only [plain, hop] at hp
    obtain rfl := Option.some.inj hp
    exact v.plainReg hf ops hj' hp' hl h0 rfl trivial (movq_run v.hal (IF ops) _ hat)
  case self =>
    have hj : jump i = none := by simp only [jump, hop]
    have hl : Leads (f.code s.pos) s.pos (s.pos + 1 : Nat) := by rw [hi]; simp only [Leads, hop]; omega
    obtain ⟨bs, hp, hat⟩ := hpl hj
    have hp' : plain E f (f.code s.pos) = some bs := by rw [hi]; exact hp
    have hj' : jump (f.code s.pos) = none := by rw [hi]; exact hj
    simp only [plain, hop] at hp
    obtain rfl := Option.some.inj hp
    split at h0
    · rename_i x hx
      have hk : f.upvalsize + f.localsize < words f := by unfold words; omega
      have ex : s.stack (f.upvalsize + f.localsize) = x := by
        unfold State.rd addr at hx
        rw [v.rbase] at hx
        rw [if_neg (by omega)] at hx
        split at hx
        · rename_i k hk
          split at hk
          · cases hk; cases hx
            congr 1; omega
          · cases hk
        · cases hx
      have r1 := v.frame _ hk
      have r2 := v.noref _ (by omega) hk
      have es : slotOf f (f.upvalsize + f.localsize) = need f - 1 := by
        unfold slotOf need
        rw [if_neg (by omega), if_neg (by omega), if_pos rfl]; omega
      rw [ex, es, ← v.rbp] at r1
      rw [ex] at r2
      exact v.plainReg hf ops hj' hp' hl h0 r1 r2
        (move_run v.hal (IF ops) (inFrame_of hf (by unfold need; omega) (by unfold need; omega)) hat)
    · cases h0
  case getlocal =>
    have hj : jump i = none := by simp only [jump, hop]
    have hl : Leads (f.code s.pos) s.pos (s.pos + 1 : Nat) := by rw [hi]; simp only [Leads, hop]; omega
    obtain ⟨bs, hp, hat⟩ := hpl hj
    have hp' : plain E f (f.code s.pos) = some bs := by rw [hi]; exact hp
    have hj' : jump (f.code s.pos) = none := by rw [hi]; exact hj
    simp only [plain, hop, hno, Bool.false_eq_true, if_false, List.append_nil] at hp
    obtain rfl := Option.some.inj hp
    obtain ⟨ha, hb⟩ := ops
    split at h0
    · rename_i x hx
      obtain ⟨r1, r2⟩ := v.locRep hb hx
      rw [isRef_none r2] at h0
      exact v.plainReg hf ha hj' hp' hl h0 r1 r2 (move_run v.hal (IF ha) (inFrame_of hf (loc_need hb).1 (loc_need hb).2) hat)
    · cases h0
  case setlocal =>
    have hj : jump i = none := by simp only [jump, hop]
    have hl : Leads (f.code s.pos) s.pos (s.pos + 1 : Nat) := by rw [hi]; simp only [Leads, hop]; omega
    obtain ⟨bs, hp, hat⟩ := hpl hj
    have hp' : plain E f (f.code s.pos) = some bs := by rw [hi]; exact hp
    have hj' : jump (f.code s.pos) = none := by rw [hi]; exact hj
    simp only [plain, hop, hno, Bool.false_eq_true, if_false, List.append_nil] at hp
    obtain rfl := Option.some.inj hp
    obtain ⟨ha, hb⟩ := ops
    split at h0
    · rename_i x y hx hy
      obtain ⟨r1, r2⟩ := v.locRep hb hx
      obtain ⟨r3, r4⟩ := v.regRep ha hy
      rw [isRef_none r2] at h0
      dsimp only at h0
      split at h0
      · rename_i s1 hs1
        cases h0
        have e := wr_eq hb.1 hs1
        rw [v.lbase] at e
        obtain ⟨q1, q2⟩ := slotOf_loc hb
        have hfl := flow_lt hf v.pos hl
        rw [em]
        refine ((setlocal_run (H := H) v.hal (inFrame_of hf (loc_need hb).1 (loc_need hb).2) (IF ha) hat).one ?_).mono fun m' hw => ?_
        · intro m' hw
          rw [hw.1]
          have := plain_pos hp'
          show _ ≠ off E f s.pos
          omega
        · have ep : s1.pos = s.pos := by rw [e]
          refine v.write (k0 := f.upvalsize + i.b.toNat) (val := y) (w := m.mem (slot (m.regs 5) i.a)) q2 (by omega) ?_ r3 r4
            (by rw [e]) (by rw [e]) (by show s1.pos + 1 < _; rw [ep]; omega) (by rw [e]) (by rw [e])
          rw [q1, show off E f ({ s1 with pos := s1.pos + 1 } : State).pos = off E f (s.pos + 1) by rw [← ep], off_plain hj' hp']
          exact hw
      · cases h0
    · cases h0
  case getupval =>
    have hj : jump i = none := by simp only [jump, hop]
    have hl : Leads (f.code s.pos) s.pos (s.pos + 1 : Nat) := by rw [hi]; simp only [Leads, hop]; omega
    obtain ⟨bs, hp, hat⟩ := hpl hj
    have hp' : plain E f (f.code s.pos) = some bs := by rw [hi]; exact hp
    have hj' : jump (f.code s.pos) = none := by rw [hi]; exact hj
    simp only [plain, hop] at hp
    obtain rfl := Option.some.inj hp
    obtain ⟨ha, hb⟩ := ops
    split at h0
    · rename_i x hx
      have r1 := v.upRep hb hx
      split at h0
      · rename_i n hn
        obtain ⟨rfl, u, hu⟩ := isRef_some hn
        simp only [State.deref, hu] at h0
        have r1 : m.mem (slot (m.regs 5) (lregs f + i.b)) = loc n := r1
        have al : aligned (loc n + 8#64) = true := by
          have := (v.placed.obj n).1
          unfold aligned at this ⊢
          simp only [beq_iff_eq] at this ⊢
          rw [BitVec.toNat_add]; simp; omega
        have rr := getupval_run (ext := ext) (H := H) v.hal (IF ha) (inFrame_of hf (up_need hb).1 (up_need hb).2) (by rw [r1]; exact al) hat
        rw [r1] at rr
        exact v.plainReg hf ha hj' hp' hl h0 (v.cells n u hu) (v.cellv n u hu) rr
      · cases h0
    · cases h0
  case setupval =>
    have hj : jump i = none := by simp only [jump, hop]
    have hl : Leads (f.code s.pos) s.pos (s.pos + 1 : Nat) := by rw [hi]; simp only [Leads, hop]; omega
    obtain ⟨bs, hp, hat⟩ := hpl hj
    have hp' : plain E f (f.code s.pos) = some bs := by rw [hi]; exact hp
    have hj' : jump (f.code s.pos) = none := by rw [hi]; exact hj
    simp only [plain, hop] at hp
    obtain rfl := Option.some.inj hp
    obtain ⟨ha, hb⟩ := ops
    split at h0
    · rename_i x y hx hy
      have r1 := v.upRep hb hx
      obtain ⟨r3, r4⟩ := v.regRep ha hy
      split at h0
      · rename_i n hn
        obtain ⟨rfl, u, hu⟩ := isRef_some hn
        cases h0
        have r1 : m.mem (slot (m.regs 5) (lregs f + i.b)) = loc n := r1
        have al : aligned (loc n + 8#64) = true := by
          have := (v.placed.obj n).1
          unfold aligned at this ⊢
          simp only [beq_iff_eq] at this ⊢
          rw [BitVec.toNat_add]; simp; omega
        have rr := setupval_run (ext := ext) (H := H) v.hal (IF ha) (inFrame_of hf (up_need hb).1 (up_need hb).2) (by rw [r1]; exact al) hat
        rw [r1] at rr
        have hfl := flow_lt hf v.pos hl
        rw [em]
        refine (rr.one ?_).mono fun m' hw => ?_
        · intro m' hw
          rw [hw.1]
          have := plain_pos hp'
          show _ ≠ off E f s.pos
          omega
        · refine v.cell hu (w := m.mem (slot (m.regs 5) i.a)) ?_ r3 r4 (by show s.pos + 1 < _; omega) rfl
          rw [show off E f ({ s.setRef n y with pos := s.pos + 1 } : State).pos = off E f (s.pos + 1) from rfl, off_plain hj' hp']
          exact hw
      · cases h0
    · cases h0
  case add =>
    have hj : jump i = none := by simp only [jump, hop]
    have hl : Leads (f.code s.pos) s.pos (s.pos + 1 : Nat) := by rw [hi]; simp only [Leads, hop]; omega
    obtain ⟨bs, hp, hat⟩ := hpl hj
    have hp' : plain E f (f.code s.pos) = some bs := by rw [hi]; exact hp
    have hj' : jump (f.code s.pos) = none := by rw [hi]; exact hj
    simp only [plain, hop] at hp
    obtain rfl := Option.some.inj hp
    obtain ⟨ha, hb⟩ := ops
    obtain ⟨x, y, hx, hy, ix, iy, hfit, hs⟩ := math_imm h0 (hT' t h)
    have rx := (v.regRep ha hx).1.imm
    have ry := (v.regRep hb hy).1.imm
    refine v.plainReg hf ha hj' hp' hl hs ?_ trivial (math2_run v.hal (IF ha) (IF hb) (by decide) (by rw [rx]; exact ix) (by rw [ry]; exact iy)
      (add_ops _ _) hat)
    rw [rx, ry]; exact jitAdd_eq ix iy
  case sub =>
    have hj : jump i = none := by simp only [jump, hop]
    have hl : Leads (f.code s.pos) s.pos (s.pos + 1 : Nat) := by rw [hi]; simp only [Leads, hop]; omega
    obtain ⟨bs, hp, hat⟩ := hpl hj
    have hp' : plain E f (f.code s.pos) = some bs := by rw [hi]; exact hp
    have hj' : jump (f.code s.pos) = none := by rw [hi]; exact hj
    simp only [plain, hop] at hp
    obtain rfl := Option.some.inj hp
    obtain ⟨ha, hb⟩ := ops
    obtain ⟨x, y, hx, hy, ix, iy, hfit, hs⟩ := math_imm h0 (hT' t h)
    have rx := (v.regRep ha hx).1.imm
    have ry := (v.regRep hb hy).1.imm
    obtain ⟨hs1, hs2⟩ := jitSub_eq ix iy hfit
    refine v.plainReg hf ha hj' hp' hl hs ?_ trivial (math2_run v.hal (IF ha) (IF hb) (by decide) (by rw [rx]; exact ix) (by rw [ry]; exact iy)
      (sub_ops _ _ (by rw [rx, ry]; exact hs1)) hat)
    rw [rx, ry]; exact hs2
  case mult =>
    have hj : jump i = none := by simp only [jump, hop]
    have hl : Leads (f.code s.pos) s.pos (s.pos + 1 : Nat) := by rw [hi]; simp only [Leads, hop]; omega
    obtain ⟨bs, hp, hat⟩ := hpl hj
    have hp' : plain E f (f.code s.pos) = some bs := by rw [hi]; exact hp
    have hj' : jump (f.code s.pos) = none := by rw [hi]; exact hj
    simp only [plain, hop] at hp
    obtain rfl := Option.some.inj hp
    obtain ⟨ha, hb⟩ := ops
    obtain ⟨x, y, hx, hy, ix, iy, hfit, hs⟩ := math_imm h0 (hT' t h)
    have rx := (v.regRep ha hx).1.imm
    have ry := (v.regRep hb hy).1.imm
    obtain ⟨hs1, hs2⟩ := jitMult_eq ix hfit
    refine v.plainReg hf ha hj' hp' hl hs ?_ trivial (math2_run v.hal (IF ha) (IF hb) (by decide) (by rw [rx]; exact ix) (by rw [ry]; exact iy)
      (mult_ops _ _ (by rw [rx, ry]; exact hs1)) hat)
    rw [rx, ry]; exact hs2
  case div =>
    have hj : jump i = none := by simp only [jump, hop]
    have hl : Leads (f.code s.pos) s.pos (s.pos + 1 : Nat) := by rw [hi]; simp only [Leads, hop]; omega
    obtain ⟨bs, hp, hat⟩ := hpl hj
    have hp' : plain E f (f.code s.pos) = some bs := by rw [hi]; exact hp
    have hj' : jump (f.code s.pos) = none := by rw [hi]; exact hj
    simp only [plain, hop] at hp
    obtain rfl := Option.some.inj hp
    obtain ⟨ha, hb⟩ := ops
    obtain ⟨x, y, z, hx, hy, ix, iy, hz, hs⟩ := math2_imm h0
    obtain ⟨b1, b2, b3⟩ := hT' x y hx hy
    have rx := (v.regRep ha hx).1.imm
    have ry := (v.regRep hb hy).1.imm
    have hz0 : pnInt y ≠ 0 ∧ z = (pnInt x).tdiv (pnInt y) := by
      unfold cArith at hz
      dsimp only at hz
      split at hz
      · cases hz
      · rename_i h0
        unfold defined at hz
        split at hz
        · cases hz; exact ⟨h0, rfl⟩
        · cases hz
    refine v.plainReg hf ha hj' hp' hl hs ?_ trivial (math2_run v.hal (IF ha) (IF hb) (by decide) (by rw [rx]; exact ix) (by rw [ry]; exact iy)
      (div_ops _ _ (by rw [rx]; exact ix) (by rw [ry]; exact iy) (by rw [rx]; exact b1) (by rw [ry]; exact b2) (by rw [ry]; exact hz0.1)) hat)
    rw [rx, ry, hz0.2]
    show tagged32 _ = _
    unfold tagged32
    rw [if_pos b3]
  case rem =>
    have hj : jump i = none := by simp only [jump, hop]
    have hl : Leads (f.code s.pos) s.pos (s.pos + 1 : Nat) := by rw [hi]; simp only [Leads, hop]; omega
    obtain ⟨bs, hp, hat⟩ := hpl hj
    have hp' : plain E f (f.code s.pos) = some bs := by rw [hi]; exact hp
    have hj' : jump (f.code s.pos) = none := by rw [hi]; exact hj
    simp only [plain, hop] at hp
    obtain rfl := Option.some.inj hp
    obtain ⟨ha, hb⟩ := ops
    obtain ⟨x, y, z, hx, hy, ix, iy, hz, hs⟩ := math2_imm h0
    obtain ⟨b1, b2, b3⟩ := hT' x y hx hy
    have rx := (v.regRep ha hx).1.imm
    have ry := (v.regRep hb hy).1.imm
    have hz0 : pnInt y ≠ 0 ∧ z = (pnInt x).tmod (pnInt y) := by
      unfold cArith at hz
      dsimp only at hz
      split at hz
      · cases hz
      · rename_i h0
        split at hz
        · cases hz; exact ⟨h0, rfl⟩
        · cases hz
    refine v.plainReg hf ha hj' hp' hl hs ?_ trivial (math2_run v.hal (IF ha) (IF hb) (by decide) (by rw [rx]; exact ix) (by rw [ry]; exact iy)
      (rem_ops _ _ (by rw [rx]; exact ix) (by rw [ry]; exact iy) (by rw [rx]; exact b1) (by rw [ry]; exact b2) (by rw [ry]; exact hz0.1)) hat)
    rw [rx, ry, hz0.2]
    show tagged32 _ = _
    unfold tagged32
    rw [if_pos b3]
  case bitn =>
    have hj : jump i = none := by simp only [jump, hop]
    have hl : Leads (f.code s.pos) s.pos (s.pos + 1 : Nat) := by rw [hi]; simp only [Leads, hop]; omega
    obtain ⟨bs, hp, hat⟩ := hpl hj
    have hp' : plain E f (f.code s.pos) = some bs := by rw [hi]; exact hp
    have hj' : jump (f.code s.pos) = none := by rw [hi]; exact hj
    simp only [plain, hop] at hp
    obtain rfl := Option.some.inj hp
    obtain ⟨ha, hb⟩ := ops
    split at h0
    · rename_i x hx
      split at h0
      · rename_i ix
        rw [hb] at hx
        have rx := (v.regRep ha hx).1.imm
        refine v.plainReg hf ha hj' hp' hl h0 ?_ trivial (bitn_run v.hal (IF ha) (by rw [rx]; exact ix) hat)
        rw [rx]; exact jitBitn_eq ix
      · cases h0
    · cases h0
  case not =>
    have hj : jump i = none := by simp only [jump, hop]
    have hl : Leads (f.code s.pos) s.pos (s.pos + 1 : Nat) := by rw [hi]; simp only [Leads, hop]; omega
    obtain ⟨bs, hp, hat⟩ := hpl hj
    have hp' : plain E f (f.code s.pos) = some bs := by rw [hi]; exact hp
    have hj' : jump (f.code s.pos) = none := by rw [hi]; exact hj
    simp only [plain, hop] at hp
    obtain rfl := Option.some.inj hp
    split at h0
    · rename_i x hx
      obtain ⟨r1, r2⟩ := v.regRep ops hx
      have ht := rep_test v.placed r1 (fun p e => hT' p (by rw [hx, e]))
      refine v.plainReg hf ops hj' hp' hl h0 ?_ trivial (test_run v.hal (IF ops) _ _ hat)
      rw [ht]
      show _ = pnBool _
      cases vtest x <;> rfl
    · cases h0
  case test =>
    have hj : jump i = none := by simp only [jump, hop]
    have hl : Leads (f.code s.pos) s.pos (s.pos + 1 : Nat) := by rw [hi]; simp only [Leads, hop]; omega
    obtain ⟨bs, hp, hat⟩ := hpl hj
    have hp' : plain E f (f.code s.pos) = some bs := by rw [hi]; exact hp
    have hj' : jump (f.code s.pos) = none := by rw [hi]; exact hj
    simp only [plain, hop] at hp
    obtain rfl := Option.some.inj hp
    split at h0
    · rename_i x hx
      obtain ⟨r1, r2⟩ := v.regRep ops hx
      have ht := rep_test v.placed r1 (fun p e => hT' p (by rw [hx, e]))
      refine v.plainReg hf ops hj' hp' hl h0 ?_ trivial (test_run v.hal (IF ops) _ _ hat)
      rw [ht]
      show _ = pnBool _
      cases vtest x <;> rfl
    · cases h0
  case eq =>
    have hj : jump i = none := by simp only [jump, hop]
    have hl : Leads (f.code s.pos) s.pos (s.pos + 1 : Nat) := by rw [hi]; simp only [Leads, hop]; omega
    obtain ⟨bs, hp, hat⟩ := hpl hj
    have hp' : plain E f (f.code s.pos) = some bs := by rw [hi]; exact hp
    have hj' : jump (f.code s.pos) = none := by rw [hi]; exact hj
    simp only [plain, hop] at hp
    obtain rfl := Option.some.inj hp
    obtain ⟨ha, hb⟩ := ops
    obtain ⟨x, y, hx, hy, hs⟩ := veq_imm h0
    have rx := (v.regRep ha hx).1.imm
    have ry := (v.regRep hb hy).1.imm
    obtain ⟨wx, wy⟩ := hT' x y hx hy
    refine v.plainReg hf ha hj' hp' hl hs rfl trivial (eq_run v.hal (IF ha) (IF hb) i3 hP ?_ hat)
    intro c e1 e2 e3 e4 e5
    rw [rx] at e4
    rw [ry] at e5
    obtain ⟨m', g1, g2, g3⟩ := hH.eq c (by show (c.regs 4).toNat % 16 = 0; rw [saved_rsp e1]; exact v.h16) e3
      (by show word (c.regs 6); rw [e4]; exact wx) (by show word (c.regs 2); rw [e5]; exact wy)
    refine ⟨m', g1, g2, ?_⟩
    have g3 : m'.regs 0 = pnBool (c.regs 6 == c.regs 2) := g3
    rw [g3, e4, e5]
    cases h : x == y <;> simp [bne, h]
  case neq =>
    have hj : jump i = none := by simp only [jump, hop]
    have hl : Leads (f.code s.pos) s.pos (s.pos + 1 : Nat) := by rw [hi]; simp only [Leads, hop]; omega
    obtain ⟨bs, hp, hat⟩ := hpl hj
    have hp' : plain E f (f.code s.pos) = some bs := by rw [hi]; exact hp
    have hj' : jump (f.code s.pos) = none := by rw [hi]; exact hj
    simp only [plain, hop] at hp
    obtain rfl := Option.some.inj hp
    obtain ⟨ha, hb⟩ := ops
    obtain ⟨x, y, hx, hy, hs⟩ := veq_imm h0
    have rx := (v.regRep ha hx).1.imm
    have ry := (v.regRep hb hy).1.imm
    obtain ⟨wx, wy⟩ := hT' x y hx hy
    refine v.plainReg hf ha hj' hp' hl hs rfl trivial (eq_run v.hal (IF ha) (IF hb) i3 hP ?_ hat)
    intro c e1 e2 e3 e4 e5
    rw [rx] at e4
    rw [ry] at e5
    obtain ⟨m', g1, g2, g3⟩ := hH.neq c (by show (c.regs 4).toNat % 16 = 0; rw [saved_rsp e1]; exact v.h16) e3
      (by show word (c.regs 6); rw [e4]; exact wx) (by show word (c.regs 2); rw [e5]; exact wy)
    refine ⟨m', g1, g2, ?_⟩
    have g3 : m'.regs 0 = pnBool (c.regs 6 != c.regs 2) := g3
    rw [g3, e4, e5]
    cases h : x == y <;> simp [bne, h]
  case lt =>
    have hj : jump i = none := by simp only [jump, hop]
    have hl : Leads (f.code s.pos) s.pos (s.pos + 1 : Nat) := by rw [hi]; simp only [Leads, hop]; omega
    obtain ⟨bs, hp, hat⟩ := hpl hj
    have hp' : plain E f (f.code s.pos) = some bs := by rw [hi]; exact hp
    have hj' : jump (f.code s.pos) = none := by rw [hi]; exact hj
    simp only [plain, hop] at hp
    obtain rfl := Option.some.inj hp
    obtain ⟨ha, hb, h31⟩ := ops
    obtain ⟨x, y, hx, hy, ix, iy, hs⟩ := ncmp_imm h0
    have rx := (v.regRep ha hx).1.imm
    have ry := (v.regRep hb hy).1.imm
    have hm := (cmp_eq (hT' x y hx hy)).1
    refine v.plainReg hf ha hj' hp' hl hs ?_ trivial (numcmp_run v.hal (IF ha) (IF hb) h31 0x7C#8 0x72#8 .l (fun _ _ => rfl) _
      (by rw [rx]; exact ix) (by rw [ry]; exact iy) (fun c => by rw [rx, ry]; exact cmp_l c x y) hat)
    show _ = vmNumCmp _ x y
    unfold vmNumCmp
    dsimp only
    rw [hm]
  case lte =>
    have hj : jump i = none := by simp only [jump, hop]
    have hl : Leads (f.code s.pos) s.pos (s.pos + 1 : Nat) := by rw [hi]; simp only [Leads, hop]; omega
    obtain ⟨bs, hp, hat⟩ := hpl hj
    have hp' : plain E f (f.code s.pos) = some bs := by rw [hi]; exact hp
    have hj' : jump (f.code s.pos) = none := by rw [hi]; exact hj
    simp only [plain, hop] at hp
    obtain rfl := Option.some.inj hp
    obtain ⟨ha, hb, h31⟩ := ops
    obtain ⟨x, y, hx, hy, ix, iy, hs⟩ := ncmp_imm h0
    have rx := (v.regRep ha hx).1.imm
    have ry := (v.regRep hb hy).1.imm
    have hm := (cmp_eq (hT' x y hx hy)).2.1
    refine v.plainReg hf ha hj' hp' hl hs ?_ trivial (numcmp_run v.hal (IF ha) (IF hb) h31 0x7E#8 0x76#8 .le (fun _ _ => rfl) _
      (by rw [rx]; exact ix) (by rw [ry]; exact iy) (fun c => by rw [rx, ry]; exact cmp_le c x y) hat)
    show _ = vmNumCmp _ x y
    unfold vmNumCmp
    dsimp only
    rw [hm]
  case gt =>
    have hj : jump i = none := by simp only [jump, hop]
    have hl : Leads (f.code s.pos) s.pos (s.pos + 1 : Nat) := by rw [hi]; simp only [Leads, hop]; omega
    obtain ⟨bs, hp, hat⟩ := hpl hj
    have hp' : plain E f (f.code s.pos) = some bs := by rw [hi]; exact hp
    have hj' : jump (f.code s.pos) = none := by rw [hi]; exact hj
    simp only [plain, hop] at hp
    obtain rfl := Option.some.inj hp
    obtain ⟨ha, hb, h31⟩ := ops
    obtain ⟨x, y, hx, hy, ix, iy, hs⟩ := ncmp_imm h0
    have rx := (v.regRep ha hx).1.imm
    have ry := (v.regRep hb hy).1.imm
    have hm := (cmp_eq (hT' x y hx hy)).2.2.1
    refine v.plainReg hf ha hj' hp' hl hs ?_ trivial (numcmp_run v.hal (IF ha) (IF hb) h31 0x7F#8 0x77#8 .g (fun _ _ => rfl) _
      (by rw [rx]; exact ix) (by rw [ry]; exact iy) (fun c => by rw [rx, ry]; exact cmp_g c x y) hat)
    show _ = vmNumCmp _ x y
    unfold vmNumCmp
    dsimp only
    rw [hm]
  case gte =>
    have hj : jump i = none := by simp only [jump, hop]
    have hl : Leads (f.code s.pos) s.pos (s.pos + 1 : Nat) := by rw [hi]; simp only [Leads, hop]; omega
    obtain ⟨bs, hp, hat⟩ := hpl hj
    have hp' : plain E f (f.code s.pos) = some bs := by rw [hi]; exact hp
    have hj' : jump (f.code s.pos) = none := by rw [hi]; exact hj
    simp only [plain, hop] at hp
    obtain rfl := Option.some.inj hp
    obtain ⟨ha, hb, h31⟩ := ops
    obtain ⟨x, y, hx, hy, ix, iy, hs⟩ := ncmp_imm h0
    have rx := (v.regRep ha hx).1.imm
    have ry := (v.regRep hb hy).1.imm
    have hm := (cmp_eq (hT' x y hx hy)).2.2.2
    refine v.plainReg hf ha hj' hp' hl hs ?_ trivial (numcmp_run v.hal (IF ha) (IF hb) h31 0x7D#8 0x73#8 .ge (fun _ _ => rfl) _
      (by rw [rx]; exact ix) (by rw [ry]; exact iy) (fun c => by rw [rx, ry]; exact cmp_ge c x y) hat)
    show _ = vmNumCmp _ x y
    unfold vmNumCmp
    dsimp only
    rw [hm]
  case jmp =>
    have hj : jump i = some ([0xE9#8], i.a) := by simp only [jump, hop]
    have hl : Leads (f.code s.pos) s.pos (s.pos + i.a + 1) := by rw [hi]; simp only [Leads, hop]
    obtain ⟨_, hat⟩ := hju _ _ hj
    obtain ⟨hd, hq⟩ := laid_disp hL hf v.pos (by rw [hi]; exact hj) hl
    have hfl := flow_lt hf v.pos hl
    cases h0
    rw [em]
    exact (jmp_run _ _ hd hat (by rw [hq]; simp)).mono fun m' hw => v.moved hw (by show (_ : Int).toNat < _; omega) rfl
  case testjmp =>
    have hj : jump i = some (movRbp 0x8B#8 i.a ++ [0x48#8, 0x83#8, 0xF8#8, 0x02#8, 0x74#8, 10#8] ++
      [0x48#8, 0x85#8, 0xC0#8, 0x74#8, 5#8] ++ [0xE9#8], i.b) := by simp only [jump, hop]
    have hl : Leads (f.code s.pos) s.pos (s.pos + i.b + 1) := by rw [hi]; simp only [Leads, hop]; exact .inr trivial
    have hl' : Leads (f.code s.pos) s.pos (s.pos + 1) := by rw [hi]; simp only [Leads, hop]; exact .inl trivial
    obtain ⟨_, hat⟩ := hju _ _ hj
    have hj' := (congrArg jump hi).trans hj
    obtain ⟨hd, hq⟩ := laid_disp hL hf v.pos hj' hl
    have hfl := flow_lt hf v.pos hl
    have hfl' := flow_lt hf v.pos hl'
    have hlen4 : (movRbp 0x8B#8 i.a ++ [0x48#8, 0x83#8, 0xF8#8, 0x02#8, 0x74#8, 10#8] ++
      [0x48#8, 0x85#8, 0xC0#8, 0x74#8, 5#8] ++ [0xE9#8]).length + 4 = ldLen i.a + 16 := by len
    have ho : off E f (s.pos + 1) = off E f s.pos + (ldLen i.a + 16) := by
      have := off_jump (E := E) hj'
      omega
    rw [hlen4] at hq
    split at h0
    · rename_i x hx
      obtain ⟨r1, r2⟩ := v.regRep ops hx
      have ht := rep_test v.placed r1 (fun p e => hT' p (by rw [hx, e]))
      cases h0
      rw [em]
      refine (testjmp_run v.hal (IF ops) _ _ hd hat hq).mono fun m' hw => v.moved ?_ ?_ rfl
      · rw [ht] at hw
        dsimp only
        cases hv : vtest x <;> rw [hv] at hw
        · simp only [Bool.false_eq_true, if_false, Bool.not_false, if_true] at hw ⊢; rw [ho]; exact hw
        · simp only [Bool.not_true, Bool.false_eq_true, if_false, if_true] at hw ⊢; exact hw
      · dsimp only; split <;> omega
    · cases h0
  case notjmp =>
    have hj : jump i = some (movRbp 0x8B#8 i.a ++ [0x48#8, 0x83#8, 0xF8#8, 0x02#8, 0x74#8, 5#8] ++
      [0x48#8, 0x85#8, 0xC0#8, 0x75#8, 5#8] ++ [0xE9#8], i.b) := by simp only [jump, hop]
    have hl : Leads (f.code s.pos) s.pos (s.pos + i.b + 1) := by rw [hi]; simp only [Leads, hop]; exact .inr trivial
    have hl' : Leads (f.code s.pos) s.pos (s.pos + 1) := by rw [hi]; simp only [Leads, hop]; exact .inl trivial
    obtain ⟨_, hat⟩ := hju _ _ hj
    have hj' := (congrArg jump hi).trans hj
    obtain ⟨hd, hq⟩ := laid_disp hL hf v.pos hj' hl
    have hfl := flow_lt hf v.pos hl
    have hfl' := flow_lt hf v.pos hl'
    have hlen4 : (movRbp 0x8B#8 i.a ++ [0x48#8, 0x83#8, 0xF8#8, 0x02#8, 0x74#8, 5#8] ++
      [0x48#8, 0x85#8, 0xC0#8, 0x75#8, 5#8] ++ [0xE9#8]).length + 4 = ldLen i.a + 16 := by len
    have ho : off E f (s.pos + 1) = off E f s.pos + (ldLen i.a + 16) := by
      have := off_jump (E := E) hj'
      omega
    rw [hlen4] at hq
    split at h0
    · rename_i x hx
      obtain ⟨r1, r2⟩ := v.regRep ops hx
      have ht := rep_test v.placed r1 (fun p e => hT' p (by rw [hx, e]))
      cases h0
      rw [em]
      refine (notjmp_run v.hal (IF ops) _ _ hd hat hq).mono fun m' hw => v.moved ?_ ?_ rfl
      · rw [ht] at hw
        dsimp only
        cases hv : vtest x <;> rw [hv] at hw
        · simp only [Bool.false_eq_true, if_false, Bool.not_false, if_true] at hw ⊢; exact hw
        · simp only [Bool.not_true, Bool.false_eq_true, if_false, if_true] at hw ⊢; rw [ho]; exact hw
      · dsimp only; split <;> omega
    · cases h0
  case ret =>
    rw [State.ret, if_neg (by rw [v.cur]; decide)] at h0
    split at h0
    · cases h0
    · split at h0 <;> cases h0

end

end Potion.Jit
