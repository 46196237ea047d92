import Verif.Proof.JitOps
import Verif.Proof.JitLayout
/-!
The generated code simulates the interpreter.
-/
namespace Potion.Jit
open Potion Potion.X86 Potion.Vm

variable {E : Env} {f : Proto} {loc : Nat → PN} {H : PN → Prop} {cl tup bp : PN} {ext : Ext} {code : List Byte}
  {sv : PN × PN × PN × PN × PN} {top : PN → PN}

theorem Reach.one {m Q} (h : Reach ext code m Q) (hQ : ∀ m', Q m' → m'.rip ≠ m.rip) : Reach1 ext code m Q := by
  obtain ⟨k, m', r, q⟩ := h
  cases k with
  | zero => cases r; exact absurd rfl (hQ _ q)
  | succ k => exact ⟨k, m', r, q⟩

theorem Reach1.mono {m Q Q'} (h : Reach1 ext code m Q) (h' : ∀ m1, Q m1 → Q' m1) : Reach1 ext code m Q' := by
  obtain ⟨k, m1, r, q⟩ := h
  exact ⟨k, m1, r, h' _ q⟩

/-! ### Slots -/

theorem frame_ge (f : Proto) : (need f + protoargs f) * 8 ≤ frame f ∧ frame f < (need f + protoargs f) * 8 + 16 ∧
    frame f % 16 = 0 := by
  unfold frame; omega

theorem slot_toNat {bp : PN} {x : Int} (h0 : 0 ≤ x) (h : (x + 1) * 8 ≤ bp.toNat) :
    ((slot bp x).toNat : Int) = bp.toNat - (x + 1) * 8 := by
  unfold slot disp
  have := bp.isLt
  rw [BitVec.toNat_add, BitVec.toNat_ofInt]
  omega

theorem slotOf_range {k : Nat} (h : k < words f) : 0 ≤ slotOf f k ∧ slotOf f k < need f ∧ slotOf f k ≠ need f - 3 ∧
    slotOf f k ≠ need f - 2 := by
  unfold slotOf need words at *
  split
  · omega
  · split
    · omega
    · split <;> omega

theorem slotOf_inj {i j : Nat} (hi : i < words f) (hj : j < words f) (h : slotOf f i = slotOf f j) : i = j := by
  unfold slotOf words at *
  split at h <;> split at h <;> (try split at h) <;> (try split at h) <;> (try split at h) <;> (try split at h) <;> omega

theorem slotOf_reg {x : Int} (h : IsReg f x) : slotOf f (f.upvalsize + f.localsize + 1 + x.toNat) = x ∧
    f.upvalsize + f.localsize + 1 + x.toNat < words f := by
  unfold slotOf words IsReg at *
  rw [if_neg (by omega), if_neg (by omega), if_neg (by omega)]
  omega

theorem slotOf_loc {x : Int} (h : IsLoc f x) : slotOf f (f.upvalsize + x.toNat) = f.stack + x ∧
    f.upvalsize + x.toNat < words f := by
  unfold slotOf words IsLoc at *
  rw [if_neg (by omega), if_pos (by omega)]
  omega

theorem slotOf_up {x : Int} (h : IsUp f x) : slotOf f x.toNat = lregs f + x ∧ x.toNat < words f := by
  unfold slotOf words IsUp lregs at *
  rw [if_pos (by omega)]
  omega

/-! ### The relation -/

/-- Interpreter state `s` and machine state `m` before an instruction. -/
structure Sim (E : Env) (f : Proto) (loc : Nat → PN) (H : PN → Prop) (cl tup bp : PN) (sv : PN × PN × PN × PN × PN) (top : PN → PN)
    (s : State) (m : Mach) : Prop where
  fn : s.f = f
  cur : s.cur = 0
  pos : s.pos < f.len
  rip : m.rip = off E f s.pos
  sv : saved m = (bp - BitVec.ofInt 64 (frame f), bp, sv)
  al : bp.toNat % 16 = 0
  room : frame f ≤ bp.toNat ∧ bp.toNat + 264 ≤ 2^64
  frame : ∀ k, k < words f → Rep loc (s.stack k) (m.mem (slot bp (slotOf f k)))
  noref : ∀ k, f.upvalsize ≤ k → k < words f → NoRef s.heap (s.stack k)
  P : m.mem (slot bp (need f - 3)) = E.P
  cl : m.mem (slot bp (need f - 2)) = cl
  cells : HeapRep loc s.heap m.mem
  cellv : ∀ (n : Nat) v, s.heap[n]? = some (Obj.ref v) → NoRef s.heap v
  placed : Placed f loc H s.heap (bp + 8#64)
  top : ∀ A : PN, bp.toNat ≤ A.toNat → ¬ H A → m.mem A = top A
  consts : Consts f.values loc H s.heap tup m.mem

section
variable {s : State} {m : Mach} (v : Sim E f loc H cl tup bp sv top s m)
include v

theorem Sim.rsp : m.regs 4 = bp - BitVec.ofInt 64 (Jit.frame f) := congrArg Prod.fst v.sv
theorem Sim.rbp : m.regs 5 = bp := congrArg (fun x => x.2.1) v.sv

theorem Sim.hal : aligned (m.regs 5) = true := by
  rw [v.rbp]; unfold aligned; have := v.al; simp only [beq_iff_eq]; omega

theorem Sim.rspNat : ((m.regs 4).toNat : Int) = bp.toNat - Jit.frame f := by
  rw [v.rsp]
  have h1 := v.room
  have h2 := frame_ge f
  have hb := bp.isLt
  have h3 : 0 ≤ Jit.frame f := by unfold need at h2; omega
  rw [BitVec.toNat_sub, BitVec.toNat_ofInt]
  omega

theorem Sim.h16 : (m.regs 4).toNat % 16 = 0 := by
  have := v.rspNat
  have h2 := frame_ge f
  have h3 := v.al
  omega

theorem Sim.slotNat {x : Int} (h0 : 0 ≤ x) (h : x < need f) : ((slot bp x).toNat : Int) = bp.toNat - (x + 1) * 8 := by
  have h1 := v.room
  have h2 := frame_ge f
  exact slot_toNat h0 (by omega)

theorem Sim.slot_live {x : Int} (h0 : 0 ≤ x) (h : x < need f) : Live H m (slot bp x) := by
  left
  have h1 := v.rspNat
  have h2 := v.slotNat h0 h
  have h3 := frame_ge f
  show (m.regs 4).toNat ≤ (slot bp x).toNat
  omega

theorem Sim.slot_ne {x y : Int} (h0 : 0 ≤ x) (h : x < need f) (h0' : 0 ≤ y) (h' : y < need f) (hne : x ≠ y) :
    slot bp x ≠ slot bp y := by
  intro e
  have h1 := v.slotNat h0 h
  have h2 := v.slotNat h0' h'
  rw [e] at h1
  omega

theorem Sim.top_live {A : PN} (h : bp.toNat ≤ A.toNat) : Live H m A := by
  left
  have h1 := v.rspNat
  have h3 := frame_ge f
  have : 0 ≤ need f := by unfold need; omega
  show (m.regs 4).toNat ≤ A.toNat
  omega

theorem Sim.inUse {x : Int} (h0 : 0 ≤ x) (h : x < need f) : InUse f (bp + 8#64) (slot bp x) := by
  have h1 := v.slotNat h0 h
  have h3 := frame_ge f
  have h4 := v.room
  have hb : (bp + 8#64).toNat = bp.toNat + 8 := by
    rw [BitVec.toNat_add]; simp; omega
  unfold InUse
  rw [hb]
  omega

theorem Sim.cell_ne {n : Nat} {u : Val} (hn : s.heap[n]? = some (Obj.ref u)) {x : Int} (h0 : 0 ≤ x) (h : x < need f) :
    loc n + 8#64 ≠ slot bp x := by
  intro e
  have := (v.placed.stack _ (v.placed.ref n u hn)).1
  rw [e] at this
  exact this (v.inUse h0 h)

/-- A register or variable gets a new value on both sides. -/
theorem Sim.write {t : State} {m' : Mach} {k0 : Nat} {val : Val} {w : PN} (hk : k0 < words f) (hU : f.upvalsize ≤ k0)
    (hw : Wrote H m (off E f t.pos) (slotOf f k0) w m') (hr : Rep loc val w) (hn : NoRef s.heap val)
    (e1 : t.f = s.f) (e2 : t.cur = s.cur) (e3 : t.pos < f.len) (e4 : t.heap = s.heap)
    (e5 : t.stack = fun j => if j = k0 then val else s.stack j) : Sim E f loc H cl tup bp sv top t m' := by
  obtain ⟨w1, w2, w3⟩ := hw
  rw [v.rbp] at w3
  have hr0 := slotOf_range hk
  have key : ∀ {x : Int}, 0 ≤ x → x < need f → x ≠ slotOf f k0 → m'.mem (slot bp x) = m.mem (slot bp x) := by
    intro x a b c
    rw [w3 _ (v.slot_live a b), if_neg (v.slot_ne a b hr0.1 hr0.2.1 c)]
  have cell : ∀ (n : Nat) u, s.heap[n]? = some (Obj.ref u) → m'.mem (loc n + 8#64) = m.mem (loc n + 8#64) := by
    intro n u hn
    rw [w3 _ (.inr (v.placed.ref n u hn)), if_neg (v.cell_ne hn hr0.1 hr0.2.1)]
  refine ⟨e1.trans v.fn, e2.trans v.cur, e3, w1, w2.trans v.sv, v.al, v.room, ?_, ?_, ?_, ?_, ?_, ?_, ?_, ?_, ?_⟩
  · intro k hk'
    rw [e5]
    by_cases h : k = k0
    · subst h
      show Rep loc (if k = k then val else _) _
      rw [if_pos rfl, w3 _ (v.slot_live hr0.1 hr0.2.1), if_pos rfl]
      exact hr
    · show Rep loc (if k = k0 then val else _) _
      have := slotOf_range hk'
      rw [if_neg h, key this.1 this.2.1 (fun e => h (slotOf_inj hk' hk e))]
      exact v.frame k hk'
  · intro k hU' hk'
    rw [e4, e5]
    show NoRef _ (if k = k0 then val else _)
    split
    · exact hn
    · exact v.noref k hU' hk'
  · rw [key (by unfold need; omega) (by unfold need; omega) (Ne.symm hr0.2.2.1)]; exact v.P
  · rw [key (by unfold need; omega) (by unfold need; omega) (Ne.symm hr0.2.2.2)]; exact v.cl
  · intro n u hn
    rw [e4] at hn
    rw [cell n u hn]
    exact v.cells n u hn
  · rw [e4]; exact v.cellv
  · rw [e4]; exact v.placed
  · intro A hA hH
    rw [w3 _ (v.top_live hA), if_neg]
    · exact v.top A hA hH
    · intro e
      have := v.slotNat hr0.1 hr0.2.1
      rw [e] at hA
      omega
  · rw [e4]
    refine ⟨v.consts.al, fun b w hb => ?_, v.consts.apart⟩
    obtain ⟨c1, c2⟩ := v.consts.word b w hb
    rw [w3 _ (.inr c2), if_neg]
    · exact ⟨c1, c2⟩
    · intro e
      have := (v.placed.stack _ c2).1
      rw [e] at this
      exact this (v.inUse hr0.1 hr0.2.1)

/-- Only the position changes. -/
theorem Sim.moved {t : State} {m' : Mach} (hw : Moved m (off E f t.pos) m') (e3 : t.pos < f.len)
    (e : t = { s with pos := t.pos }) : Sim E f loc H cl tup bp sv top t m' := by
  obtain ⟨w1, w2, w3⟩ := hw
  have a1 : t.f = s.f := by rw [e]
  have a2 : t.cur = s.cur := by rw [e]
  have a3 : t.stack = s.stack := by rw [e]
  have a4 : t.heap = s.heap := by rw [e]
  refine ⟨a1.trans v.fn, a2.trans v.cur, e3, w1, w2.trans v.sv, v.al, v.room, ?_, ?_, ?_, ?_, ?_, ?_, ?_, ?_, ?_⟩
  · rw [a3, w3]; exact v.frame
  · rw [a3, a4]; exact v.noref
  · rw [w3]; exact v.P
  · rw [w3]; exact v.cl
  · rw [a4, w3]; exact v.cells
  · rw [a4]; exact v.cellv
  · rw [a4]; exact v.placed
  · rw [w3]; exact v.top
  · rw [a4, w3]; exact v.consts

/-- A reference cell gets a new value on both sides. -/
theorem Sim.cell {t : State} {m' : Mach} {n0 : Nat} {u0 val : Val} {w : PN} (hn0 : s.heap[n0]? = some (Obj.ref u0))
    (hw : WroteAt H m (off E f t.pos) (loc n0 + 8#64) w m') (hr : Rep loc val w) (hn : NoRef s.heap val) (e3 : t.pos < f.len)
    (e : t = { s.setRef n0 val with pos := t.pos }) : Sim E f loc H cl tup bp sv top t m' := by
  obtain ⟨w1, w2, w3⟩ := hw
  have a1 : t.f = s.f := by rw [e]; rfl
  have a2 : t.cur = s.cur := by rw [e]; rfl
  have a3 : t.stack = s.stack := by rw [e]; rfl
  have a4 : t.heap = s.heap.set n0 (.ref val) := by rw [e]; rfl
  have hlt : n0 < s.heap.length := (List.getElem?_eq_some_iff.mp hn0).1
  have refs : ∀ (n : Nat) u, t.heap[n]? = some (Obj.ref u) → ∃ u', s.heap[n]? = some (Obj.ref u') := by
    intro n u h
    rw [a4, List.getElem?_set] at h
    split at h
    · rename_i h'; subst h'; exact ⟨u0, hn0⟩
    · exact ⟨u, h⟩
  have nr : ∀ x, NoRef s.heap x → NoRef t.heap x := by
    intro x h
    cases x with
    | obj n =>
      intro u hu
      obtain ⟨u', hu'⟩ := refs n u hu
      exact h u' hu'
    | imm _ => trivial
    | fn _ => trivial
  have key : ∀ {x : Int}, 0 ≤ x → x < need f → m'.mem (slot bp x) = m.mem (slot bp x) := by
    intro x a b
    rw [w3 _ (v.slot_live a b), if_neg (Ne.symm (v.cell_ne hn0 a b))]
  refine ⟨a1.trans v.fn, a2.trans v.cur, e3, w1, w2.trans v.sv, v.al, v.room, ?_, ?_, ?_, ?_, ?_, ?_, ?_, ?_, ?_⟩
  · intro k hk
    have := slotOf_range hk
    rw [a3, key this.1 this.2.1]; exact v.frame k hk
  · intro k h1 h2
    rw [a3]; exact nr _ (v.noref k h1 h2)
  · rw [key (by unfold need; omega) (by unfold need; omega)]; exact v.P
  · rw [key (by unfold need; omega) (by unfold need; omega)]; exact v.cl
  · intro n u hu
    obtain ⟨u', hu'⟩ := refs n u hu
    rw [w3 _ (.inr (v.placed.ref n u' hu'))]
    rw [a4, List.getElem?_set] at hu
    split at hu
    · rename_i h; subst h
      cases hu
      rw [if_pos rfl]; exact hr
    · rename_i h
      rw [if_neg]
      · exact v.cells n u hu
      · intro e
        have : loc n = loc n0 := BitVec.add_left_inj _ |>.mp e
        exact h (v.placed.apart n n0 u' u0 hu' hn0 this).symm
  · intro n u hu
    rw [a4, List.getElem?_set] at hu
    split at hu
    · cases hu
      exact nr _ hn
    · exact nr _ (v.cellv n u hu)
  · refine ⟨v.placed.obj, ?_, ?_, v.placed.stack⟩
    · intro n u hu
      obtain ⟨u', hu'⟩ := refs n u hu
      exact v.placed.ref n u' hu'
    · intro n n' u u' h1 h2
      obtain ⟨_, h1'⟩ := refs n u h1
      obtain ⟨_, h2'⟩ := refs n' u' h2
      exact v.placed.apart n n' _ _ h1' h2'
  · intro A hA hH
    rw [w3 _ (v.top_live hA), if_neg]
    · exact v.top A hA hH
    · intro e
      rw [e] at hH
      exact hH (v.placed.ref n0 u0 hn0)
  · refine ⟨v.consts.al, fun b w hb => ?_, fun b w hb n u hu => ?_⟩
    · obtain ⟨c1, c2⟩ := v.consts.word b w hb
      rw [w3 _ (.inr c2), if_neg (fun e => v.consts.apart b w hb n0 u0 hn0 e.symm)]
      exact ⟨c1, c2⟩
    · obtain ⟨u', hu'⟩ := refs n u hu
      exact v.consts.apart b w hb n u' hu'

end

/-! ### The interpreter's accesses -/

theorem rd_eq {s : State} {base : Nat} {x : Int} {v : Val} (h0 : 0 ≤ x) (h : s.rd base x = some v) :
    s.stack (base + x.toNat) = v := by
  unfold State.rd addr at h
  rw [if_neg (by omega)] at h
  split at h
  · rename_i k hk
    split at hk
    · cases hk; cases h
      congr 1; omega
    · cases hk
  · cases h

theorem wr_eq {s t : State} {base : Nat} {x : Int} {v : Val} (h0 : 0 ≤ x) (h : s.wr base x v = some t) :
    t = { s with stack := fun j => if j = base + x.toNat then v else s.stack j } := by
  unfold State.wr addr at h
  rw [if_neg (by omega)] at h
  split at h
  · rename_i k hk
    split at hk
    · cases hk; cases h
      rw [show ((base : Int) + x).toNat = base + x.toNat by omega]
    · cases hk
  · cases h

theorem setReg_eq {s t : State} {x : Int} {v : Val} (h0 : 0 ≤ x) (h : s.setReg x v = .run t) :
    t = { s with stack := fun j => if j = s.rbase + x.toNat then v else s.stack j
                 pos := s.pos + 1 } := by
  unfold State.setReg at h
  split at h
  · cases h
  · rename_i t' ht
    cases h
    rw [wr_eq h0 ht]

theorem isRef_none {s : State} {v : Val} (h : NoRef s.heap v) : s.isRef v = none := by
  cases v with
  | obj n =>
    simp only [State.isRef]
    split
    · rename_i u hu; exact absurd hu (h u)
    · rfl
  | imm _ => rfl
  | fn _ => rfl

theorem isRef_some {s : State} {v : Val} {n : Nat} (h : s.isRef v = some n) : v = .obj n ∧ ∃ u, s.heap[n]? = some (Obj.ref u) := by
  cases v with
  | obj k =>
    simp only [State.isRef] at h
    split at h
    · rename_i u hu; cases h; exact ⟨rfl, u, hu⟩
    · cases h
  | imm _ => cases h
  | fn _ => cases h

/-- What is needed of the generated code. -/
structure Laid (E : Env) (f : Proto) (code : List Byte) : Prop where
  small : code.length < 2^31
  pro : At code 0 (prologue f)
  len : code.length = off E f f.len
  plain : ∀ j, j < f.len → jump (f.code j) = none → ∃ bs, plain E f (f.code j) = some bs ∧ At code (off E f j) bs
  jump : ∀ j, j < f.len → ∀ pre d, jump (f.code j) = some (pre, d) → 0 ≤ (j : Int) + d + 1 ∧
        At code (off E f j) (pre ++ asmI (dispOf E f j d))

theorem flow_lt {f : Proto} (hf : Simple f) {k : Nat} (hk : k < f.len) {to : Int} (h : Leads (f.code k) k to) : 0 ≤ to ∧ to < f.len :=
  hf.flow k hk to h

theorem off_plain {j : Nat} {bs : List Byte} (h1 : jump (f.code j) = none) (h2 : plain E f (f.code j) = some bs) :
    off E f (j + 1) = off E f j + bs.length := by
  simp only [off, blockLen, h1, h2]

theorem need_small (hf : Simple f) : need f < 2^17 := by
  have := hf.size
  unfold need
  omega

theorem inFrame_of {x : Int} (hf : Simple f) (h0 : 0 ≤ x) (h : x < need f) : InFrame x := by
  have := need_small hf
  exact ⟨h0, by omega⟩

theorem reg_need {x : Int} (h : IsReg f x) : 0 ≤ x ∧ x < need f := by
  unfold IsReg at h; unfold need; omega
theorem loc_need {x : Int} (h : IsLoc f x) : 0 ≤ (f.stack + x : Int) ∧ (f.stack + x : Int) < need f := by
  unfold IsLoc at h; unfold need; omega
theorem up_need {x : Int} (h : IsUp f x) : 0 ≤ lregs f + x ∧ lregs f + x < need f := by
  unfold IsUp at h; unfold need lregs; omega

theorem rep_test {loc : Nat → PN} {heap : List Obj} {sp : PN} (hp : Placed f loc H heap sp) {v : Val} {w : PN} (h : Rep loc v w)
    (hv : ∀ p, v ≠ .fn p) : pnTest w = vtest v := by
  cases v with
  | imm x => rw [show w = x from h]; rfl
  | fn p => exact absurd rfl (hv p)
  | obj n =>
    rw [show w = loc n from h]
    obtain ⟨h1, h2⟩ := hp.obj n
    show pnTest (loc n) = true
    have : loc n ≠ PN_FALSE := by
      intro e; rw [e] at h1; revert h1; decide
    simp [pnTest, this, show loc n ≠ PN_NIL from h2]

section
variable {s t : State} {m : Mach} (v : Sim E f loc H cl tup bp sv top s m)
include v

theorem Sim.rbase : s.rbase = f.upvalsize + f.localsize + 1 := by
  unfold State.rbase; rw [v.fn, v.cur]; omega
theorem Sim.lbase : s.lbase = f.upvalsize := by
  unfold State.lbase; rw [v.fn, v.cur]; omega

theorem Sim.regRep {x : Int} (h : IsReg f x) {u : Val} (hu : s.rd s.rbase x = some u) :
    Rep loc u (m.mem (slot (m.regs 5) x)) ∧ NoRef s.heap u := by
  have e := rd_eq h.1 hu
  rw [v.rbase] at e
  obtain ⟨h1, h2⟩ := slotOf_reg h
  have h3 := v.frame _ h2
  rw [h1, e] at h3
  have h4 := v.noref _ (by omega) h2
  rw [e] at h4
  rw [v.rbp]
  exact ⟨h3, h4⟩

theorem Sim.locRep {x : Int} (h : IsLoc f x) {u : Val} (hu : s.rd s.lbase x = some u) :
    Rep loc u (m.mem (slot (m.regs 5) (f.stack + x))) ∧ NoRef s.heap u := by
  have e := rd_eq h.1 hu
  rw [v.lbase] at e
  obtain ⟨h1, h2⟩ := slotOf_loc h
  have h3 := v.frame _ h2
  rw [h1, e] at h3
  have h4 := v.noref _ (by omega) h2
  rw [e] at h4
  rw [v.rbp]
  exact ⟨h3, h4⟩

theorem Sim.upRep {x : Int} (h : IsUp f x) {u : Val} (hu : s.rd s.cur x = some u) :
    Rep loc u (m.mem (slot (m.regs 5) (lregs f + x))) := by
  have e := rd_eq h.1 hu
  rw [v.cur, Nat.zero_add] at e
  obtain ⟨h1, h2⟩ := slotOf_up h
  have h3 := v.frame _ h2
  rw [h1, e] at h3
  rw [v.rbp]
  exact h3

/-- A result stored in a register. -/
theorem Sim.setReg (hf : Simple f) {a : Int} (ha : IsReg f a) {val : Val} {w : PN} {m' : Mach} {n : Nat} (ht : s.setReg a val = .run t)
    (hl : Leads (f.code s.pos) s.pos (s.pos + 1 : Nat)) (hn : off E f (s.pos + 1) = n)
    (hw : Wrote H m n a w m') (hr : Rep loc val w) (hv : NoRef s.heap val) : Sim E f loc H cl tup bp sv top t m' := by
  have e := setReg_eq ha.1 ht
  obtain ⟨h1, h2⟩ := slotOf_reg ha
  have hp : t.pos = s.pos + 1 := by rw [e]
  have := flow_lt hf v.pos hl
  refine v.write (k0 := f.upvalsize + f.localsize + 1 + a.toNat) (val := val) (w := w) h2 (by omega) ?_ hr hv
    (by rw [e]) (by rw [e]) (by rw [hp]; omega) (by rw [e]) ?_
  · rw [hp, h1, hn]; exact hw
  · rw [e, v.rbase]

end

end Potion.Jit
