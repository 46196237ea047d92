import Verif.Proof.CompileShape
import Verif.Proof.Number
import Verif.Spec.Compiler
/-!
Running code of the shape `CodeAt` does what `Spec.eval` says.
-/
namespace Potion.Compile
open Potion Potion.Vm Potion.Spec

theorem isInt_odd {w : PN} {i : Int} (h : Denotes w i) : isInt w = true := (denotes_iff w i).1 h |>.1

theorem isInt_nil : isInt PN_NIL = false := by decide
theorem isInt_bool (b : Bool) : isInt (pnBool b) = false := by cases b <;> decide

/-- Truth of a word is truth of the value. -/
theorem RV.test {v : V} {w : PN} (h : RV v w) : pnTest w = v.truthy := by
  cases v with
  | int i =>
    have h1 := isInt_odd h
    have : w ≠ PN_FALSE := by rintro rfl; revert h1; decide
    have : w ≠ PN_NIL := by rintro rfl; revert h1; decide
    simp [pnTest, V.truthy, *]
  | bool b => cases b <;> (rw [h]; decide)
  | nil => rw [h]; decide
  | fn => exact h.elim

/-- Words are equal exactly when the values are. -/
theorem RV.same {v v' : V} {w w' : PN} {e : Bool} (h : RV v w) (h' : RV v' w') (hs : v.same v' = some e) : (w == w') = e := by
  cases v with
  | int i =>
    cases v' with
    | int j =>
      simp only [V.same, Option.some.injEq] at hs
      subst hs
      by_cases e : i = j
      · subst e
        have h : Denotes w i := h
        have h' : Denotes w' i := h'
        rw [h.eq_pnNum, h'.eq_pnNum]; simp
      · have : w ≠ w' := by
          rintro rfl
          exact e (Spec.Denotes.unique h h')
        simp [this, e]
    | bool b =>
      simp only [V.same, Option.some.injEq] at hs
      subst hs
      have h1 := isInt_odd h
      have : w ≠ w' := by rintro rfl; rw [h', isInt_bool] at h1; simp at h1
      simp [this]
    | nil =>
      simp only [V.same, Option.some.injEq] at hs
      subst hs
      have h1 := isInt_odd h
      have : w ≠ w' := by rintro rfl; rw [h', isInt_nil] at h1; simp at h1
      simp [this]
    | fn => exact h'.elim
  | bool b =>
    cases v' with
    | int j =>
      simp only [V.same, Option.some.injEq] at hs
      subst hs
      have h1 := isInt_odd h'
      have : w ≠ w' := by rintro rfl; rw [h, isInt_bool] at h1; simp at h1
      simp [this]
    | bool b' =>
      simp only [V.same, Option.some.injEq] at hs
      subst hs
      cases b <;> cases b' <;> (rw [h, h']; decide)
    | nil =>
      simp only [V.same, Option.some.injEq] at hs
      subst hs
      cases b <;> (rw [h, h']; decide)
    | fn => exact h'.elim
  | nil =>
    cases v' with
    | int j =>
      simp only [V.same, Option.some.injEq] at hs
      subst hs
      have h1 := isInt_odd h'
      have : w ≠ w' := by rintro rfl; rw [h, isInt_nil] at h1; simp at h1
      simp [this]
    | bool b' =>
      simp only [V.same, Option.some.injEq] at hs
      subst hs
      cases b' <;> (rw [h, h']; decide)
    | nil =>
      simp only [V.same, Option.some.injEq] at hs
      subst hs
      rw [h, h']; decide
    | fn => exact h'.elim
  | fn => exact h.elim

theorem toNat_of_denotes {w : PN} {i : Int} (h : Denotes w i) : (w.toNat : Int) = if 0 ≤ i then 2 * i + 1 else 2 * i + 1 + 2^64 := by
  have h : w.toInt = 2 * i + 1 := h
  have := w.isLt
  rw [BitVec.toInt_eq_toNat_bmod] at h
  simp only [Int.bmod] at h
  split <;> omega

def relOp : Rel → COp
  | .lt => .lt | .le => .le | .gt => .gt | .ge => .ge

theorem denotes_msb {w : PN} {i : Int} (h : Denotes w i) : w.msb = decide (i < 0) := by
  have h : w.toInt = 2 * i + 1 := h
  rw [BitVec.msb_eq_toInt]
  simp only [decide_eq_decide]
  omega

theorem numcmp_same {w w' : PN} {i j : Int} (h : Denotes w i) (h' : Denotes w' j) (hs : sameSign i j = true) (r : Rel) :
    vmNumCmp (relOp r) w w' = pnBool (r.holds i j) := by
  have e1 := toNat_of_denotes h
  have e2 := toNat_of_denotes h'
  have hs : (0 ≤ i ↔ 0 ≤ j) := by simpa [sameSign] using hs
  unfold vmNumCmp
  congr 1
  cases r <;> simp only [relOp, Rel.holds, decide_eq_decide] <;> split at e1 <;> split at e2 <;> omega

/-- Checked operators. -/
theorem math3_ok {w w' : PN} {i j r : Int} (h : Denotes w i) (h' : Denotes w' j) (op : AOp) (o : Op)
    (ho : (op = .add ∧ o = .plus) ∨ (op = .sub ∧ o = .minus) ∨ (op = .mul ∧ o = .times)) (hr : arithVal o i j = some r) :
    ∃ v, vmMath3 op (fun k => ((k, 0) : Int × Int)) (fun p q => (p.1, q.1)) w w' = .imm v ∧ Denotes v r := by
  have e1 := ((denotes_iff w i).1 h).2
  have e2 := ((denotes_iff w' j).1 h').2
  have key : ∀ x : Int, InRange x → Int.bmod x (2^64) = x ∧ FitsLong x := by
    intro x hx
    simp only [InRange] at hx
    simp only [Int.bmod, FitsLong]; omega
  have lim : pnInt LONG_MAX = 2^62 - 1 ∧ pnInt LONG_MIN = -(2^62) := by decide
  rcases ho with ⟨rfl, rfl⟩ | ⟨rfl, rfl⟩ | ⟨rfl, rfl⟩ <;>
  · simp only [arithVal] at hr
    split at hr
    · rename_i hin
      have := key _ hin
      obtain rfl := by simpa using hr
      refine ⟨pnNum _, ?_, denotes_pnNum hin⟩
      simp only [InRange] at hin
      simp only [vmMath3, builtinOverflow, e1, e2, this.1, lim]
      rw [if_neg]
      simp [this.2]
      omega
    · simp at hr

theorem math2_ok {w w' : PN} {i j r : Int} (h : Denotes w i) (h' : Denotes w' j) (op : AOp) (o : Op)
    (ho : (op = .div ∧ o = .over) ∨ (op = .rem ∧ o = .mod) ∨ (op = .shl ∧ o = .shl) ∨ (op = .shr ∧ o = .shr))
    (hr : arithVal o i j = some r) : ∃ v, vmMath2 op w w' = some v ∧ Denotes v r := by
  have e1 := ((denotes_iff w i).1 h).2
  have e2 := ((denotes_iff w' j).1 h').2
  have key : ∀ x : Int, InRange x → Int.bmod x (2^64) = x ∧ FitsLong x := by
    intro x hx
    simp only [InRange] at hx
    simp only [Int.bmod, FitsLong]; omega
  have hi := h.inRange
  rcases ho with ⟨rfl, rfl⟩ | ⟨rfl, rfl⟩ | ⟨rfl, rfl⟩ | ⟨rfl, rfl⟩
  · simp only [arithVal] at hr
    by_cases hb : j = 0
    · simp [hb] at hr
    · simp only [hb, if_false] at hr
      split at hr
      · rename_i hin
        obtain rfl := by simpa using hr
        refine ⟨pnNum _, ?_, denotes_pnNum hin⟩
        simp [vmMath2, cArith, e1, e2, hb, defined, (key _ hin).2]
      · simp at hr
  · simp only [arithVal] at hr
    by_cases hb : j = 0
    · simp [hb] at hr
    · simp only [hb, if_false] at hr
      split at hr
      · rename_i hin
        obtain rfl := by simpa using hr
        refine ⟨pnNum _, ?_, denotes_pnNum hin⟩
        have : FitsLong (Int.tdiv i j) := by
          have h1 : (Int.tdiv i j).natAbs ≤ i.natAbs := by
            rw [Int.natAbs_tdiv]; exact Nat.div_le_self _ _
          simp only [InRange] at hi
          simp only [FitsLong]; omega
        simp [vmMath2, cArith, e1, e2, hb, this]
      · simp at hr
  · simp only [arithVal] at hr
    by_cases hb : 0 ≤ j ∧ j < 64
    · simp only [hb, and_self, if_true] at hr
      split at hr
      · rename_i hin
        obtain rfl := by simpa using hr
        refine ⟨pnNum _, ?_, denotes_pnNum hin⟩
        simp only [vmMath2, cArith, e1, e2]
        rw [if_pos hb, (key _ hin).1]; rfl
      · simp at hr
    · simp [hb] at hr
  · simp only [arithVal] at hr
    by_cases hb : 0 ≤ j ∧ j < 64
    · simp only [hb, and_self, if_true] at hr
      split at hr
      · rename_i hin
        obtain rfl := by simpa using hr
        refine ⟨pnNum _, ?_, denotes_pnNum hin⟩
        simp only [vmMath2, cArith, e1, e2]
        rw [if_pos hb]; rfl
      · simp at hr
    · simp [hb] at hr

/-- A word of a value that is no function. -/
def Plainly (w : PN) : Prop := ∃ v, RV v w

/-- The operands are integers for which the operator is claimed. -/
def Claimed (ok : Claims) (o : Op) (x y : PN) : Prop :=
  ∃ i j k, Denotes x i ∧ Denotes y j ∧ arithVal o i j = some k ∧ ok.arith o i j = true

/-- What steps of evaluations do: sums do not overflow, comparisons are of integers of the same sign, equality is of
plain values, and tests are of known words. -/
def Mild (ok : Claims) (s : State) : Prop :=
  let i := s.f.code s.pos
  match i.op with
  | .add | .sub | .mult => ∀ t, s.step = .run t → t.heap = s.heap
  | .lt | .lte | .gt | .gte => ∀ x y, s.rd s.rbase i.a = some (.imm x) → s.rd s.rbase i.b = some (.imm y) → x.msb = y.msb
  | .div => ∀ x y, s.rd s.rbase i.a = some (.imm x) → s.rd s.rbase i.b = some (.imm y) → Claimed ok .over x y
  | .rem => ∀ x y, s.rd s.rbase i.a = some (.imm x) → s.rd s.rbase i.b = some (.imm y) → Claimed ok .mod x y
  | .eq | .neq => ∀ x y, s.rd s.rbase i.a = some (.imm x) → s.rd s.rbase i.b = some (.imm y) → Plainly x ∧ Plainly y
  | .test | .not | .testjmp | .notjmp => ok.unset = false → ∀ p, s.rd s.rbase i.a ≠ some (.fn p)
  | _ => True

def easy : Opc → Bool
  | .add | .sub | .mult | .lt | .lte | .gt | .gte | .div | .rem | .eq | .neq | .test | .not | .testjmp | .notjmp => false
  | _ => true

theorem mild_easy {ok : Claims} {s : State} {f : Proto} (hf : s.f = f) {i : Ins} (h : f.code s.pos = i) (ho : easy i.op = true) :
    Mild ok s := by
  subst hf
  unfold Mild
  rw [h]
  cases hi : i.op <;> simp_all [easy]

/-- One turn. -/
structure One (ok : Claims) (s t : State) : Prop where
  step : s.step = .run t
  mild : Mild ok s

/-- Runs of the interpreter. -/
inductive Star (ok : Claims) : State → State → Prop
  | refl (s) : Star ok s s
  | head {s s' s''} : One ok s s' → Star ok s' s'' → Star ok s s''

theorem Star.trans {ok} {a b c : State} (h : Star ok a b) (h' : Star ok b c) : Star ok a c := by
  induction h with
  | refl => exact h'
  | head e _ ih => exact .head e (ih h')

theorem Star.one {ok} {a b : State} (h : One ok a b) : Star ok a b := .head h (.refl _)

theorem Star.done {ok} {a b : State} (h : Star ok a b) {v s} (h' : b.step = .done v s) : ∃ n, State.steps n a = some (.done v s) := by
  induction h with
  | refl => exact ⟨1, by simp [State.steps, h']⟩
  | head e _ ih =>
    obtain ⟨n, hn⟩ := ih h'
    exact ⟨n + 1, by simp [State.steps, e.step, hn]⟩

/-- The bound on the size of frames, whether the receiver of the program is true, and what is claimed. -/
structure Lim where
  K : Nat
  own : Bool
  ok : Claims

/-- A function whose only locals are its parameters. -/
def Flat (f : Proto) : Prop := f.localsize = f.params.length ∧ f.params.Nodup

/-- ... which is small enough. -/
structure Fine (K : Nat) (f : Proto) : Prop where
  flat : Flat f
  size : f.upvalsize + f.localsize + f.stack + 3 ≤ K
  len : f.len ≤ 2048

/-- What holds of a compiled function with parameters `ps` and body `b`. -/
structure FnOk (A : Lim) (g : Tgt) (ps : List Name) (b : Prog) : Prop where
  code : ∃ e, Head g ps e ∧ CodeAt g (toSrc b) none 0 0 e
  guard : guarded A.own b = true
  width : width (toSrc b) ≤ 255
  nest : ∀ h, Within h g.f → Fine A.K h

/-- The stack word `r` holds the value `v`: `m` tells which places have moved to reference cells. -/
def VR (A : Lim) (h : List Obj) (m : Place → Option Nat) : V → Val → Prop
  | .fn ps b sc, r => ∃ n g up, r = .obj n ∧ h[n]? = some (Obj.clo g.f up) ∧ FnOk A g ps b ∧
      List.Forall₂ (fun x r => ∃ k, m (place sc x) = some k ∧ r = .obj k) g.U up
  | v, r => ∃ w, r = .imm w ∧ RV v w

theorem VR.ofRV {A h m v w} (e : RV v w) : VR A h m v (.imm w) := by
  cases v with
  | fn => exact e.elim
  | int i => exact ⟨w, rfl, e⟩
  | bool i => exact ⟨w, rfl, e⟩
  | nil => exact ⟨w, rfl, e⟩

theorem VR.toRV {A h m v r} (e : VR A h m v r) (hv : ∀ ps b sc, v ≠ .fn ps b sc) : ∃ w, r = .imm w ∧ RV v w := by
  cases v with
  | fn ps b sc => exact absurd rfl (hv ps b sc)
  | int i => exact e
  | bool i => exact e
  | nil => exact e

theorem VR.test {A h m v r} (e : VR A h m v r) : vtest r = v.truthy := by
  cases v with
  | fn ps b sc => obtain ⟨n, g, up, rfl, _⟩ := e; rfl
  | int i => obtain ⟨w, rfl, e⟩ := e; exact e.test
  | bool i => obtain ⟨w, rfl, e⟩ := e; exact e.test
  | nil => obtain ⟨w, rfl, e⟩ := e; exact e.test

theorem VR.mono {A : Lim} {h : List Obj} {m : Place → Option Nat} {h' : List Obj} {m' : Place → Option Nat} {v : V} {r : Val} (e : VR A h m v r) (hh : ∀ (n : Nat) g up, h[n]? = some (Obj.clo g up) → h'[n]? = some (Obj.clo g up))
    (hm : ∀ P k, m P = some k → m' P = some k) : VR A h' m' v r := by
  cases v with
  | fn ps b sc =>
    obtain ⟨n, g, up, rfl, e1, e2, e3⟩ := e
    exact ⟨n, g, up, rfl, hh _ _ _ e1, e2, e3.imp fun x y ⟨k, a, b⟩ => ⟨k, hm _ _ a, b⟩⟩
  | int i => exact e
  | bool i => exact e
  | nil => exact e

/-- A word for which tests succeed. -/
def Sure (A : Lim) (r : Val) : Prop := vtest r = true ∧ (A.ok.unset = false → ∀ p, r ≠ .fn p)

theorem VR.known {A h m v r} (e : VR A h m v r) : ∀ p, r ≠ .fn p := by
  rintro p rfl
  cases v with
  | fn ps b sc => obtain ⟨n, g, up, h, _⟩ := e; cases h
  | int i => obtain ⟨w, h, e⟩ := e; cases h
  | bool i => obtain ⟨w, h, e⟩ := e; cases h
  | nil => obtain ⟨w, h, e⟩ := e; cases h

theorem VR.sure {A h m v r} (e : VR A h m v r) (ht : v.truthy = true) : Sure A r := ⟨e.test.trans ht, fun _ => e.known⟩

/-- A stack word holding a value is no reference. -/
theorem VR.isRef {A m v r} {s : State} (e : VR A s.heap m v r) : s.isRef r = none := by
  cases v with
  | fn ps b sc => obtain ⟨n, g, up, rfl, e1, _⟩ := e; simp [State.isRef, e1]
  | int i => obtain ⟨w, rfl, e⟩ := e; rfl
  | bool i => obtain ⟨w, rfl, e⟩ := e; rfl
  | nil => obtain ⟨w, rfl, e⟩ := e; rfl

/-- A frame of the interpreter: the function, the parameters around, where the frame starts. -/
structure Frame where
  A : Lim
  T : Tgt
  sc : List (Ident × Nat)
  cur : Nat

/-- What does not change while the frame is active; `d` more nested calls are allowed. -/
structure Ctx (F : Frame) (d : Nat) : Prop where
  up : F.T.f.upvalsize = F.T.U.length
  loc : F.T.f.localsize = F.T.L.length
  nd : F.T.L.Nodup
  inj : ∀ x ∈ F.T.L, ∀ y ∈ F.T.L, place F.sc x = place F.sc y → x = y
  size : F.T.f.upvalsize + F.T.f.localsize + F.T.f.stack + 3 ≤ F.A.K
  deep : F.cur + (d + 1) * F.A.K + 300 ≤ 4096
  len : F.T.f.len ≤ 2048
  nest : ∀ g ∈ F.T.f.protos, ∀ h, Within h g → Fine F.A.K h
  rel : ∀ i j, F.A.ok.rel i j = true → sameSign i j = true
  tidy : F.A.ok.unset = false → F.A.own = false

theorem Ctx.room {F d} (c : Ctx F d) : F.cur + F.T.U.length + F.T.L.length + 303 ≤ 4096 := by
  have h1 := c.up
  have h2 := c.loc
  have h3 := c.size
  have h4 := c.deep
  have : F.A.K ≤ (d + 1) * F.A.K := Nat.le_mul_of_pos_left _ (by omega)
  omega

/-- A state of the evaluation and the interpreter together. -/
structure Cfg where
  m : Place → Option Nat
  env : Store
  s : State

def Cfg.has (A : Lim) (c : Cfg) (v : V) (r : Val) : Prop := VR A c.s.heap c.m v r

/-- `r` is the word of the variable at `P`, or nothing is known of it and the variable has not been assigned. -/
def Cfg.var (A : Lim) (c : Cfg) (P : Place) (r : Val) : Prop :=
  c.has A (c.env.get P) r ∨ (A.ok.unset = false ∧ c.env.isSet P = false ∧ ∃ p, r = .fn p)

theorem Cfg.var.read {A : Lim} {c : Cfg} {P : Place} {r : Val} (h : c.var A P r) {v : V} (e : c.env.read A.ok P = some v) : c.has A v r := by
  unfold Store.read at e
  split at e
  · rename_i hh
    obtain rfl := by simpa using e
    rcases h with h | ⟨h1, h2, _⟩
    · exact h
    · rw [h1, h2] at hh; cases hh
  · cases e

theorem Cfg.var.isRef {A : Lim} {c : Cfg} {P : Place} {r : Val} (h : c.var A P r) : c.s.isRef r = none := by
  rcases h with h | ⟨_, _, p, rfl⟩
  · exact VR.isRef h
  · rfl

theorem Cfg.var.mono {A : Lim} {c c' : Cfg} {P : Place} {r : Val} (h : c.var A P r) (e1 : c'.env.get P = c.env.get P)
    (e2 : c'.env.isSet P = c.env.isSet P)
    (hh : ∀ (n : Nat) g up, c.s.heap[n]? = some (Obj.clo g up) → c'.s.heap[n]? = some (Obj.clo g up))
    (hm : ∀ P k, c.m P = some k → c'.m P = some k) : c'.var A P r := by
  unfold Cfg.var
  rw [e1, e2]
  rcases h with h | h
  · exact .inl (VR.mono h hh hm)
  · exact .inr h

/-- Stack index of register `i`, local `i`, upvalue `i`. -/
def ra (F : Frame) (i : Nat) : Nat := F.cur + F.T.U.length + F.T.L.length + 1 + i
def la (F : Frame) (i : Nat) : Nat := F.cur + F.T.U.length + i

/-- The state holds the variables. -/
structure Good (F : Frame) (c : Cfg) : Prop where
  f : c.s.f = F.T.f
  cur : c.s.cur = F.cur
  loc : ∀ (i : Nat) x, F.T.L[i]? = some x → (c.m (place F.sc x) = none ∧ c.var F.A (place F.sc x) (c.s.stack (la F i))) ∨
    ∃ k, c.m (place F.sc x) = some k ∧ c.s.stack (la F i) = .obj k
  up : ∀ (i : Nat) x, F.T.U[i]? = some x → ∃ k, c.m (place F.sc x) = some k ∧ c.s.stack (F.cur + i) = .obj k
  refs : ∀ P k, c.m P = some k → ∃ r, c.s.heap[k]? = some (.ref r) ∧ c.var F.A P r
  inj : ∀ P Q k, c.m P = some k → c.m Q = some k → P = Q
  fresh : ∀ i, c.env.pars.length ≤ i → c.m (.par i) = none
  old : ∀ x ∈ F.T.L, ∀ i, place F.sc x = .par i → i < c.env.pars.length
  grow : c.s.grow = fun _ => 0
  self : F.A.own = true → vtest (c.s.stack (ra F 0 - 1)) = true

/-- The place exists already. -/
def Place.old (P : Place) (n : Nat) : Prop := ∀ i, P = .par i → i < n

/-- What a run in the frame may change. -/
structure Eff (F : Frame) (c c' : Cfg) : Prop where
  mono : ∀ P k, c.m P = some k → c'.m P = some k
  clos : ∀ (n : Nat) g up, c.s.heap[n]? = some (Obj.clo g up) → c'.s.heap[n]? = some (Obj.clo g up)
  pars : c.env.pars.length ≤ c'.env.pars.length
  foreign : ∀ P, c.m P = none → (∀ x ∈ F.T.L, P ≠ place F.sc x) → Place.old P c.env.pars.length →
    c'.m P = none ∧ c'.env.get P = c.env.get P ∧ c'.env.isSet P = c.env.isSet P
  below : ∀ k, k < F.cur → c'.s.stack k = c.s.stack k

theorem Eff.refl (F : Frame) (c : Cfg) : Eff F c c :=
  ⟨fun _ _ h => h, fun _ _ _ h => h, Nat.le_refl _, fun _ h _ _ => ⟨h, rfl, rfl⟩, fun _ _ => rfl⟩

theorem Eff.trans {F : Frame} {a b c : Cfg} (h : Eff F a b) (h' : Eff F b c) : Eff F a c := by
  refine ⟨fun P k x => h'.mono _ _ (h.mono _ _ x), fun n g up x => h'.clos _ _ _ (h.clos _ _ _ x), Nat.le_trans h.pars h'.pars, ?_,
    fun k hk => (h'.below k hk).trans (h.below k hk)⟩
  intro P h1 h2 h3
  have ⟨e1, e2, e2'⟩ := h.foreign P h1 h2 h3
  have ⟨e3, e4, e4'⟩ := h'.foreign P e1 h2 (fun i hi => Nat.lt_of_lt_of_le (h3 i hi) h.pars)
  exact ⟨e3, e4.trans e2, e4'.trans e2'⟩

theorem Eff.has {F : Frame} {a b : Cfg} (h : Eff F a b) {A v r} (e : a.has A v r) : b.has A v r := VR.mono e h.clos h.mono

/-- A run from `c` to `c'`. -/
structure To (F : Frame) (c c' : Cfg) : Prop where
  star : Star F.A.ok c.s c'.s
  eff : Eff F c c'
  good : Good F c'

theorem To.trans {F : Frame} {a b c : Cfg} (h : To F a b) (h' : To F b c) : To F a c :=
  ⟨h.star.trans h'.star, h.eff.trans h'.eff, h'.good⟩

theorem To.refl {F : Frame} {c : Cfg} (g : Good F c) : To F c c := ⟨.refl _, Eff.refl _ _, g⟩

/-- Write a stack word and go to `pos`. -/
def wput (s : State) (k : Nat) (v : Val) (pos : Nat) : State :=
  { s with stack := fun j => if j = k then v else s.stack j, pos := pos }

/-- The same for configurations. -/
def Cfg.reg (F : Frame) (c : Cfg) (i : Nat) (v : Val) (pos : Nat) : Cfg := { c with s := wput c.s (ra F i) v pos }
def Cfg.go (c : Cfg) (pos : Nat) : Cfg := { c with s := { c.s with pos := pos } }

/-- One turn on a known instruction. -/
theorem raw {f : Proto} {s : State} (hf : s.f = f) {a : Ins} (hp : s.pos < f.len) (h : f.code s.pos = a) :
    s.pos < s.f.len ∧ s.f.code s.pos = a := by subst hf; exact ⟨hp, h⟩
theorem raw_loadpn (s : State) (a b) (h : s.pos < s.f.len ∧ s.f.code s.pos = ⟨.loadpn, a, b⟩) :
    s.step = s.setReg a (.imm (BitVec.ofInt 64 b)) := by
  unfold State.step; rw [if_pos h.1]; simp only [h.2]
theorem raw_loadk (s : State) (a) (i : Nat) (v) (h : s.pos < s.f.len ∧ s.f.code s.pos = ⟨.loadk, a, i⟩) (hv : s.f.values[i]? = some v) :
    s.step = s.setReg a (.imm v) := by
  unfold State.step; rw [if_pos h.1]; simp only [h.2, Int.natCast_nonneg, if_true, Int.toNat_natCast, hv]
theorem raw_move (s : State) (a b v) (h : s.pos < s.f.len ∧ s.f.code s.pos = ⟨.move, a, b⟩) (hv : s.rd s.rbase b = some v) :
    s.step = s.setReg a v := by
  unfold State.step; rw [if_pos h.1]; simp only [h.2, hv]
theorem raw_self (s : State) (a b v) (h : s.pos < s.f.len ∧ s.f.code s.pos = ⟨.self, a, b⟩) (hv : s.rd s.rbase (-1) = some v) :
    s.step = s.setReg a v := by
  unfold State.step; rw [if_pos h.1]; simp only [h.2, hv]
theorem raw_getlocal (s : State) (a b w) (h : s.pos < s.f.len ∧ s.f.code s.pos = ⟨.getlocal, a, b⟩)
    (hv : s.rd s.lbase b = some w) (hr : s.isRef w = none) : s.step = s.setReg a w := by
  unfold State.step; rw [if_pos h.1]; simp only [h.2, hv, hr]
theorem raw_getlocal_ref (s : State) (a b w n v) (h : s.pos < s.f.len ∧ s.f.code s.pos = ⟨.getlocal, a, b⟩)
    (hv : s.rd s.lbase b = some w) (hr : s.isRef w = some n) (hd : s.deref n = some v) : s.step = s.setReg a v := by
  unfold State.step; rw [if_pos h.1]; simp only [h.2, hv, hr, hd]
theorem raw_getupval (s : State) (a b w n v) (h : s.pos < s.f.len ∧ s.f.code s.pos = ⟨.getupval, a, b⟩)
    (hv : s.rd s.cur b = some w) (hr : s.isRef w = some n) (hd : s.deref n = some v) : s.step = s.setReg a v := by
  unfold State.step; rw [if_pos h.1]; simp only [h.2, hv, hr, hd]
theorem raw_setlocal (s : State) (a b w v s') (h : s.pos < s.f.len ∧ s.f.code s.pos = ⟨.setlocal, a, b⟩)
    (hw : s.rd s.lbase b = some w) (hr : s.isRef w = none) (hv : s.rd s.rbase a = some v) (hs : s.wr s.lbase b v = some s') :
    s.step = .run { s' with pos := s'.pos + 1 } := by
  unfold State.step; rw [if_pos h.1]; simp only [h.2, hw, hv, hr, hs]
theorem raw_setlocal_ref (s : State) (a b w v n) (h : s.pos < s.f.len ∧ s.f.code s.pos = ⟨.setlocal, a, b⟩)
    (hw : s.rd s.lbase b = some w) (hr : s.isRef w = some n) (hv : s.rd s.rbase a = some v) :
    s.step = .run { s.setRef n v with pos := s.pos + 1 } := by
  unfold State.step; rw [if_pos h.1]; simp only [h.2, hw, hv, hr]
theorem raw_setupval (s : State) (a b w v n) (h : s.pos < s.f.len ∧ s.f.code s.pos = ⟨.setupval, a, b⟩)
    (hw : s.rd s.cur b = some w) (hr : s.isRef w = some n) (hv : s.rd s.rbase a = some v) :
    s.step = .run { s.setRef n v with pos := s.pos + 1 } := by
  unfold State.step; rw [if_pos h.1]; simp only [h.2, hw, hv, hr]
theorem raw_not (s : State) (a b v) (h : s.pos < s.f.len ∧ s.f.code s.pos = ⟨.not, a, b⟩) (hv : s.rd s.rbase a = some v) :
    s.step = s.setReg a (.imm (pnBool (!vtest v))) := by
  unfold State.step; rw [if_pos h.1]; simp only [h.2, hv]
theorem raw_bitn (s : State) (a b w) (h : s.pos < s.f.len ∧ s.f.code s.pos = ⟨.bitn, a, b⟩) (hv : s.rd s.rbase b = some (.imm w))
    (hi : isInt w = true) : s.step = s.setReg a (.imm (numBitn w)) := by
  unfold State.step; rw [if_pos h.1]; simp only [h.2, hv, hi, if_true]
theorem raw_jmp (s : State) (a b) (h : s.pos < s.f.len ∧ s.f.code s.pos = ⟨.jmp, a, b⟩) :
    s.step = .run { s with pos := ((s.pos : Int) + a + 1).toNat } := by
  unfold State.step; rw [if_pos h.1]; simp only [h.2]
theorem raw_testjmp (s : State) (a b v) (h : s.pos < s.f.len ∧ s.f.code s.pos = ⟨.testjmp, a, b⟩) (hv : s.rd s.rbase a = some v) :
    s.step = .run { s with pos := if vtest v then ((s.pos : Int) + b + 1).toNat else s.pos + 1 } := by
  unfold State.step; rw [if_pos h.1]; simp only [h.2, hv]
theorem raw_notjmp (s : State) (a b v) (h : s.pos < s.f.len ∧ s.f.code s.pos = ⟨.notjmp, a, b⟩) (hv : s.rd s.rbase a = some v) :
    s.step = .run { s with pos := if vtest v then s.pos + 1 else ((s.pos : Int) + b + 1).toNat } := by
  unfold State.step; rw [if_pos h.1]; simp only [h.2, hv]
  cases vtest v <;> simp
theorem raw_ret (s : State) (a b v s') (h : s.pos < s.f.len ∧ s.f.code s.pos = ⟨.ret, a, b⟩) (hc : s.cur = 0)
    (hv : s.rd s.rbase a = some v) (hs : s.wr s.rbase 0 v = some s') : s.step = .done v s' := by
  unfold State.step; rw [if_pos h.1]
  simp only [h.2, State.ret, hc, ne_eq, not_true_eq_false, if_false, hv, hs]
theorem raw_arith (s : State) (o : Op) (a b) (h : s.pos < s.f.len ∧ s.f.code s.pos = ⟨(opNode o).opc, a, b⟩) :
    s.step = (match o with
      | .plus => s.math .add true ⟨(opNode o).opc, a, b⟩ | .minus => s.math .sub true ⟨(opNode o).opc, a, b⟩
      | .times => s.math .mul true ⟨(opNode o).opc, a, b⟩ | .over => s.math .div false ⟨(opNode o).opc, a, b⟩
      | .mod => s.math .rem false ⟨(opNode o).opc, a, b⟩ | .shl => s.math .shl false ⟨(opNode o).opc, a, b⟩
      | .shr => s.math .shr false ⟨(opNode o).opc, a, b⟩) := by
  cases o <;> (unfold State.step; rw [if_pos h.1]; simp only [h.2, opNode, BinOp.opc])
theorem raw_rel (s : State) (o : Rel) (a b) (h : s.pos < s.f.len ∧ s.f.code s.pos = ⟨(relNode o).opc, a, b⟩) :
    s.step = s.ncmp (relOp o) ⟨(relNode o).opc, a, b⟩ := by
  cases o <;> (unfold State.step; rw [if_pos h.1]; simp only [h.2, relNode, BinOp.opc, relOp])
theorem raw_eq (s : State) (neg : Bool) (a b) (h : s.pos < s.f.len ∧ s.f.code s.pos = ⟨(if neg then BinOp.neq else BinOp.eq).opc, a, b⟩) :
    s.step = s.veq (!neg) ⟨(if neg then BinOp.neq else BinOp.eq).opc, a, b⟩ := by
  cases neg <;> (unfold State.step; rw [if_pos h.1]; simp [h.2, BinOp.opc])

section
variable {F : Frame} {d : Nat}

theorem Good.rbase (x : Ctx F d) {c} (g : Good F c) : c.s.rbase = ra F 0 := by
  unfold State.rbase ra; rw [g.f, g.cur, x.up, x.loc]

theorem Good.lbase (x : Ctx F d) {c} (g : Good F c) : c.s.lbase = la F 0 := by
  unfold State.lbase la; rw [g.f, g.cur, x.up]; omega

theorem addr_at (b k : Nat) (i : Int) (h : (b : Int) + i = k) (hk : k < 4096) : addr b i = some k := by
  have hmax : STACK_MAX = 4096 := rfl
  unfold addr
  have : ((b : Int) + i).toNat = k := by omega
  rw [if_neg (by omega), this, if_pos (by omega)]

theorem rd_at (s : State) (b k : Nat) (i : Int) (h : (b : Int) + i = k) (hk : k < 4096) : s.rd b i = some (s.stack k) := by
  unfold State.rd; rw [addr_at b k i h hk]

theorem wr_at (s : State) (b k : Nat) (i : Int) (v : Val) (h : (b : Int) + i = k) (hk : k < 4096) :
    s.wr b i v = some { s with stack := fun j => if j = k then v else s.stack j } := by
  unfold State.wr; rw [addr_at b k i h hk]

theorem ra_lt (x : Ctx F d) {i : Nat} (hi : i < 300) : ra F i < 4096 := by have := x.room; unfold ra; omega

theorem rd_reg (x : Ctx F d) {c} (g : Good F c) {i : Nat} (hi : i < 300) : c.s.rd c.s.rbase (i : Int) = some (c.s.stack (ra F i)) := by
  have h1 := ra_lt x hi
  have hb := g.rbase x
  exact rd_at c.s _ _ _ (by rw [hb]; unfold ra; omega) h1

theorem setReg_at (s : State) (i : Int) (k : Nat) (v : Val)
    (h : s.wr s.rbase i v = some { s with stack := fun j => if j = k then v else s.stack j }) :
    s.setReg i v = .run (wput s k v (s.pos + 1)) := by
  unfold State.setReg
  rw [h]
  rfl

theorem wr_reg (x : Ctx F d) {c} (g : Good F c) {i : Nat} (hi : i < 300) (v : Val) :
    c.s.setReg (i : Int) v = .run (c.reg F i v (c.s.pos + 1)).s := by
  have h1 := ra_lt x hi
  have hb := g.rbase x
  exact setReg_at c.s i _ v (wr_at c.s c.s.rbase (ra F i) i v (by rw [hb]; unfold ra; omega) h1)

theorem rd_loc (x : Ctx F d) {c} (g : Good F c) {i : Nat} (hi : i < F.T.L.length) :
    c.s.rd c.s.lbase (i : Int) = some (c.s.stack (la F i)) := by
  have := x.room
  have hb := g.lbase x
  exact rd_at c.s _ _ _ (by rw [hb]; unfold la; omega) (by unfold la; omega)

theorem rd_up (x : Ctx F d) {c} (g : Good F c) {i : Nat} (hi : i < F.T.U.length) :
    c.s.rd c.s.cur (i : Int) = some (c.s.stack (F.cur + i)) := by
  have := x.room
  exact rd_at c.s _ _ _ (by rw [g.cur]; omega) (by omega)

theorem Good.go {c} (g : Good F c) (pos : Nat) : Good F (c.go pos) :=
  ⟨g.f, g.cur, g.loc, g.up, g.refs, g.inj, g.fresh, g.old, g.grow, g.self⟩

theorem Eff.go (F : Frame) (c : Cfg) (pos : Nat) : Eff F c (c.go pos) :=
  ⟨fun _ _ h => h, fun _ _ _ h => h, Nat.le_refl _, fun _ h _ _ => ⟨h, rfl, rfl⟩, fun _ _ => rfl⟩

/-- Writing a register. -/
theorem Good.reg {c} (g : Good F c) (i : Nat) (v : Val) (pos : Nat) : Good F (c.reg F i v pos) := by
  have key : ∀ k, k < ra F 0 → (c.reg F i v pos).s.stack k = c.s.stack k := by
    intro k hk
    exact if_neg (by unfold ra at *; omega)
  refine ⟨g.f, g.cur, fun j x hx => ?_, fun j x hx => ?_, g.refs, g.inj, g.fresh, g.old, g.grow, fun h => ?_⟩
  · have hj := (List.getElem?_eq_some_iff.1 hx).1
    rw [key _ (by unfold la ra; omega)]
    exact g.loc j x hx
  · have hj := (List.getElem?_eq_some_iff.1 hx).1
    rw [key _ (by unfold ra; omega)]
    exact g.up j x hx
  · rw [key _ (by unfold ra; omega)]
    exact g.self h

theorem Eff.reg (F : Frame) (c : Cfg) (i : Nat) (v : Val) (pos : Nat) : Eff F c (c.reg F i v pos) :=
  ⟨fun _ _ h => h, fun _ _ _ h => h, Nat.le_refl _, fun _ h _ _ => ⟨h, rfl, rfl⟩, fun k hk => if_neg (by unfold ra; omega)⟩

theorem reg_same (c : Cfg) (i : Nat) (v : Val) (pos : Nat) : (c.reg F i v pos).s.stack (ra F i) = v := by simp [Cfg.reg, wput]
theorem reg_ne (c : Cfg) {i j : Nat} (v : Val) (pos : Nat) (h : j ≠ i) : (c.reg F i v pos).s.stack (ra F j) = c.s.stack (ra F j) :=
  if_neg (by unfold ra; omega)

theorem To.reg {c : Cfg} (g : Good F c) {i v pos} (h : One F.A.ok c.s (c.reg F i v pos).s) : To F c (c.reg F i v pos) :=
  ⟨Star.one h, Eff.reg _ _ _ _ _, g.reg _ _ _⟩

theorem idx_get {L : List Name} {x : Name} (hx : x ∈ L) : L[L.idxOf x]? = some x :=
  List.getElem?_eq_some_iff.2 ⟨List.idxOf_lt_length_iff.2 hx, List.getElem_idxOf _⟩

theorem idx_lt {L : List Name} {x : Name} (hx : x ∈ L) : L.idxOf x < L.length := List.idxOf_lt_length_iff.2 hx

theorem get_set (st : Store) (P Q : Place) (v : V) (hq : Place.old P st.pars.length) :
    (st.set P v).get Q = if Q = P then v else st.get Q := by
  cases P with
  | main x =>
    cases Q with
    | main y => simp [Store.set, Store.get]
    | par i => simp [Store.set, Store.get]
  | par i =>
    have := hq i rfl
    cases Q with
    | main y => simp [Store.set, Store.get]
    | par j =>
      by_cases h : j = i
      · subst h; simp [Store.set, Store.get, this]
      · have : ¬ (i = j) := fun e => h e.symm
        simp [Store.set, Store.get, h, this]

theorem isSet_set (st : Store) (P Q : Place) (v : V) (h : Q ≠ P) : (st.set P v).isSet Q = st.isSet Q := by
  cases P with
  | par i => cases Q <;> rfl
  | main x =>
    cases Q with
    | par i => rfl
    | main y =>
      have : y ≠ x := fun e => h (by rw [e])
      simp [Store.set, Store.isSet, this]

theorem set_pars (st : Store) (P : Place) (v : V) : (st.set P v).pars.length = st.pars.length := by
  cases P <;> simp [Store.set]

theorem ref_deref {s : State} {k : Nat} {r : Val} (h : s.heap[k]? = some (.ref r)) : s.isRef (.obj k) = some k ∧ s.deref k = some r := by
  simp [State.isRef, State.deref, h]

/-- Writing the cell of a captured variable. -/
theorem Good.setRef {c : Cfg} (g : Good F c) {P : Place} {k : Nat} (hk : c.m P = some k) {v r} (h : c.has F.A v r) (pos : Nat) :
    Good F ⟨c.m, c.env.set P v, { c.s.setRef k r with pos := pos }⟩ ∧ Eff F c ⟨c.m, c.env.set P v, { c.s.setRef k r with pos := pos }⟩ := by
  have hold : Place.old P c.env.pars.length := by
    intro i e
    by_contra hh
    rw [e, g.fresh i (by omega)] at hk; simp at hk
  obtain ⟨r0, hr0, _⟩ := g.refs P k hk
  have hlt : k < c.s.heap.length := (List.getElem?_eq_some_iff.1 hr0).1
  have clos : ∀ (n : Nat) g up, c.s.heap[n]? = some (Obj.clo g up) → (c.s.heap.set k (.ref r))[n]? = some (Obj.clo g up) := by
    intro n g up hn
    have : k ≠ n := by rintro rfl; rw [hr0] at hn; simp at hn
    rw [List.getElem?_set_ne this]; exact hn
  have hget : ∀ Q, Q ≠ P → (c.env.set P v).get Q = c.env.get Q := fun Q hQ => by rw [get_set _ _ _ _ hold, if_neg hQ]
  refine ⟨⟨g.f, g.cur, fun j x hx => ?_, fun j x hx => g.up j x hx, fun Q n hQ => ?_, g.inj, fun i hi => ?_, fun x hx i e => ?_, g.grow, g.self⟩,
    ⟨fun _ _ h => h, clos, by simp [set_pars], fun Q h1 h2 h3 => ?_, fun _ _ => rfl⟩⟩
  · rcases g.loc j x hx with ⟨h1, h2⟩ | h1
    · refine .inl ⟨h1, ?_⟩
      have hne : place F.sc x ≠ P := by rintro e; rw [e, hk] at h1; simp at h1
      exact h2.mono (hget _ hne) (isSet_set _ _ _ _ hne) clos fun _ _ h => h
    · exact .inr h1
  · by_cases e : Q = P
    · subst e
      obtain rfl : k = n := by rw [hk] at hQ; simpa using hQ
      refine ⟨r, by simp [State.setRef, hlt], .inl ?_⟩
      show VR _ _ _ ((c.env.set Q v).get Q) _
      rw [get_set _ _ _ _ hold, if_pos rfl]
      exact VR.mono h clos fun _ _ h => h
    · obtain ⟨r', h1, h2⟩ := g.refs Q n hQ
      have : k ≠ n := by rintro rfl; exact e (g.inj _ _ _ hQ hk)
      refine ⟨r', by simp only [State.setRef]; rw [List.getElem?_set_ne this]; exact h1, ?_⟩
      exact h2.mono (hget _ e) (isSet_set _ _ _ _ e) clos fun _ _ h => h
  · exact g.fresh i (by simpa [set_pars] using hi)
  · simpa [set_pars] using g.old x hx i e
  · have hne : Q ≠ P := by rintro rfl; rw [hk] at h1; simp at h1
    exact ⟨h1, hget Q hne, isSet_set _ _ _ _ hne⟩

/-- Writing a local that is not captured. -/
theorem Good.setLoc (x : Ctx F d) {c : Cfg} (g : Good F c) {y : Name} (hy : y ∈ F.T.L) (hk : c.m (place F.sc y) = none) {v r}
    (h : c.has F.A v r) (pos : Nat) :
    Good F ⟨c.m, c.env.set (place F.sc y) v, wput c.s (la F (F.T.L.idxOf y)) r pos⟩ ∧
    Eff F c ⟨c.m, c.env.set (place F.sc y) v, wput c.s (la F (F.T.L.idxOf y)) r pos⟩ := by
  have hold : Place.old (place F.sc y) c.env.pars.length := g.old y hy
  have hlt := idx_lt hy
  have hget : ∀ Q, Q ≠ place F.sc y → (c.env.set (place F.sc y) v).get Q = c.env.get Q := fun Q hQ => by rw [get_set _ _ _ _ hold, if_neg hQ]
  have hst : ∀ k, k ≠ la F (F.T.L.idxOf y) → (wput c.s (la F (F.T.L.idxOf y)) r pos).stack k = c.s.stack k := fun k hk => if_neg hk
  refine ⟨⟨g.f, g.cur, fun j z hz => ?_, fun j z hz => ?_, fun Q n hQ => ?_, g.inj, fun i hi => ?_, fun z hz i e => ?_, g.grow, fun ho => ?_⟩,
    ⟨fun _ _ h => h, fun _ _ _ h => h, by simp [set_pars], fun Q h1 h2 h3 => ⟨h1, hget Q (h2 y hy), isSet_set _ _ _ _ (h2 y hy)⟩, fun k hk => hst k (by unfold la; omega)⟩⟩
  · have hj := (List.getElem?_eq_some_iff.1 hz)
    by_cases e : z = y
    · subst e
      have : j = F.T.L.idxOf z := by rw [← hj.2]; exact (x.nd.idxOf_getElem j hj.1).symm
      subst this
      refine .inl ⟨hk, .inl ?_⟩
      show VR _ _ _ ((c.env.set (place F.sc z) v).get (place F.sc z)) _
      rw [get_set _ _ _ _ hold, if_pos rfl]
      simp only [wput, if_true]; exact h
    · have hne : j ≠ F.T.L.idxOf y := by
        rintro rfl; rw [idx_get hy] at hz; exact e (by simpa using hz.symm)
      have hp : place F.sc z ≠ place F.sc y := fun h => e (x.inj z (List.mem_of_getElem? hz) y hy h)
      show (_ ∧ Cfg.var _ _ _ ((wput c.s (la F (F.T.L.idxOf y)) r pos).stack (la F j))) ∨ (∃ k, _ ∧ (wput c.s (la F (F.T.L.idxOf y)) r pos).stack (la F j) = _)
      rw [hst _ (by unfold la; omega)]
      rcases g.loc j z hz with ⟨h1, h2⟩ | h1
      · exact .inl ⟨h1, h2.mono (hget _ hp) (isSet_set _ _ _ _ hp) (fun _ _ _ h => h) fun _ _ h => h⟩
      · exact .inr h1
  · have hj := (List.getElem?_eq_some_iff.1 hz).1
    show ∃ k, _ ∧ (wput c.s (la F (F.T.L.idxOf y)) r pos).stack (F.cur + j) = _
    rw [hst _ (by unfold la; omega)]
    exact g.up j z hz
  · obtain ⟨r', h1, h2⟩ := g.refs Q n hQ
    refine ⟨r', h1, ?_⟩
    have hne : Q ≠ place F.sc y := by rintro rfl; rw [hk] at hQ; simp at hQ
    exact h2.mono (hget _ hne) (isSet_set _ _ _ _ hne) (fun _ _ _ h => h) fun _ _ h => h
  · exact g.fresh i (by simpa [set_pars] using hi)
  · simpa [set_pars] using g.old z hz i e
  · show vtest ((wput c.s (la F (F.T.L.idxOf y)) r pos).stack _) = true
    rw [hst _ (by unfold la ra; omega)]
    exact g.self ho

variable (x : Ctx F d) {c : Cfg} (g : Good F c) (hp : c.s.pos < F.T.f.len)
include x g hp

theorem step_loadpn {r : Nat} {b : Int} (hr : r < 300) (h : F.T.f.code c.s.pos = ⟨.loadpn, r, b⟩) :
    One F.A.ok c.s (c.reg F r (.imm (BitVec.ofInt 64 b)) (c.s.pos + 1)).s :=
  ⟨(raw_loadpn c.s _ _ (raw g.f hp h)).trans (wr_reg x g hr _), mild_easy g.f h rfl⟩

theorem step_loadk {r i : Nat} {v : PN} (hr : r < 300) (h : F.T.f.code c.s.pos = ⟨.loadk, r, i⟩) (hv : F.T.f.values[i]? = some v) :
    One F.A.ok c.s (c.reg F r (.imm v) (c.s.pos + 1)).s :=
  ⟨(raw_loadk c.s _ _ v (raw g.f hp h) (by rw [g.f]; exact hv)).trans (wr_reg x g hr _), mild_easy g.f h rfl⟩

theorem step_move {r r' : Nat} (hr : r < 300) (hr' : r' < 300) (h : F.T.f.code c.s.pos = ⟨.move, r, r'⟩) :
    One F.A.ok c.s (c.reg F r (c.s.stack (ra F r')) (c.s.pos + 1)).s :=
  ⟨(raw_move c.s _ _ _ (raw g.f hp h) (rd_reg x g hr')).trans (wr_reg x g hr _), mild_easy g.f h rfl⟩

theorem step_self {r : Nat} (hr : r < 300) (h : F.T.f.code c.s.pos = ⟨.self, r, 0⟩) :
    One F.A.ok c.s (c.reg F r (c.s.stack (ra F 0 - 1)) (c.s.pos + 1)).s := by
  have h1 := ra_lt x (i := 0) (by omega)
  refine ⟨(raw_self c.s _ _ _ (raw g.f hp h) (rd_at c.s _ (ra F 0 - 1) _ ?_ (by omega))).trans (wr_reg x g hr _), mild_easy g.f h rfl⟩
  rw [g.rbase x]; unfold ra; omega

/-- Reading a variable. -/
theorem step_get {r i : Nat} {y : Name} {up : Bool} (hr : r < 300) (hv : VarAt F.T y up i) (h : F.T.f.code c.s.pos = ⟨getOp up, r, (i : Nat)⟩) :
    ∃ v, c.var F.A (place F.sc y) v ∧ One F.A.ok c.s (c.reg F r v (c.s.pos + 1)).s := by
  unfold VarAt at hv
  cases up
  · simp only [Bool.false_eq_true, if_false] at hv
    obtain ⟨hy, rfl⟩ := hv
    have hw := rd_loc x g (idx_lt hy)
    rcases g.loc _ y (idx_get hy) with ⟨h1, h2⟩ | ⟨k, h1, h2⟩
    · exact ⟨_, h2, (raw_getlocal c.s _ _ _ (raw g.f hp h) hw h2.isRef).trans (wr_reg x g hr _), mild_easy g.f h rfl⟩
    · obtain ⟨v, e1, e2⟩ := g.refs _ _ h1
      have ⟨q1, q2⟩ := ref_deref e1
      exact ⟨v, e2, (raw_getlocal_ref c.s _ _ _ k v (raw g.f hp h) hw (by rw [h2]; exact q1) q2).trans (wr_reg x g hr _), mild_easy g.f h rfl⟩
  · simp only [if_true] at hv
    obtain ⟨hy, rfl⟩ := hv
    have hw := rd_up x g (idx_lt hy)
    obtain ⟨k, h1, h2⟩ := g.up _ y (idx_get hy)
    obtain ⟨v, e1, e2⟩ := g.refs _ _ h1
    have ⟨q1, q2⟩ := ref_deref e1
    exact ⟨v, e2, (raw_getupval c.s _ _ _ k v (raw g.f hp h) hw (by rw [h2]; exact q1) q2).trans (wr_reg x g hr _), mild_easy g.f h rfl⟩

/-- Writing a variable. -/
theorem step_set {r i : Nat} {y : Name} {up : Bool} {v : V} (hr : r < 300) (hv : VarAt F.T y up i)
    (h : F.T.f.code c.s.pos = ⟨setOp up, r, (i : Nat)⟩) (hh : c.has F.A v (c.s.stack (ra F r))) :
    ∃ c', To F c c' ∧ c'.env = c.env.set (place F.sc y) v ∧ c'.s.pos = c.s.pos + 1 ∧ ∀ j, c'.s.stack (ra F j) = c.s.stack (ra F j) := by
  have hw := rd_reg x g hr
  unfold VarAt at hv
  cases up
  · simp only [Bool.false_eq_true, if_false] at hv
    obtain ⟨hy, rfl⟩ := hv
    have hl := rd_loc x g (idx_lt hy)
    have hlt := idx_lt hy
    have rm := x.room
    rcases g.loc _ y (idx_get hy) with ⟨h1, h2⟩ | ⟨k, h1, h2⟩
    · have ⟨g1, e1⟩ := g.setLoc x hy h1 hh (c.s.pos + 1)
      have ws := wr_at c.s c.s.lbase (la F (F.T.L.idxOf y)) (F.T.L.idxOf y : Nat) (c.s.stack (ra F r))
        (by rw [g.lbase x]; unfold la; omega) (by unfold la; omega)
      refine ⟨_, ⟨Star.one ⟨raw_setlocal c.s _ _ _ _ _ (raw g.f hp h) hl h2.isRef hw ws, mild_easy g.f h rfl⟩, e1, g1⟩, rfl, rfl, fun j => ?_⟩
      exact if_neg (by unfold ra la; omega)
    · obtain ⟨v', e1, e2⟩ := g.refs _ _ h1
      have ⟨q1, q2⟩ := ref_deref e1
      have ⟨g1, e1⟩ := g.setRef h1 hh (c.s.pos + 1)
      exact ⟨_, ⟨Star.one ⟨raw_setlocal_ref c.s _ _ _ _ k (raw g.f hp h) hl (by rw [h2]; exact q1) hw, mild_easy g.f h rfl⟩, e1, g1⟩, rfl, rfl, fun j => rfl⟩
  · simp only [if_true] at hv
    obtain ⟨hy, rfl⟩ := hv
    have hl := rd_up x g (idx_lt hy)
    obtain ⟨k, h1, h2⟩ := g.up _ y (idx_get hy)
    obtain ⟨v', e1, e2⟩ := g.refs _ _ h1
    have ⟨q1, q2⟩ := ref_deref e1
    have ⟨g1, e1⟩ := g.setRef h1 hh (c.s.pos + 1)
    exact ⟨_, ⟨Star.one ⟨raw_setupval c.s _ _ _ _ k (raw g.f hp h) hl (by rw [h2]; exact q1) hw, mild_easy g.f h rfl⟩, e1, g1⟩, rfl, rfl, fun j => rfl⟩

theorem step_not {r : Nat} {v : Val} (hr : r < 300) (h : F.T.f.code c.s.pos = ⟨.not, r, r⟩) (hv : c.s.stack (ra F r) = v)
    (hn : F.A.ok.unset = false → ∀ p, v ≠ .fn p) :
    One F.A.ok c.s (c.reg F r (.imm (pnBool (!vtest v))) (c.s.pos + 1)).s := by
  have h1 := rd_reg x g hr
  rw [hv] at h1
  refine ⟨(raw_not c.s _ _ _ (raw g.f hp h) h1).trans (wr_reg x g hr _), ?_⟩
  unfold Mild
  rw [g.f, h]
  intro i0 hu p hh
  rw [h1] at hh
  exact hn hu p (Option.some.inj hh)

theorem step_bitn {r : Nat} {w : PN} (hr : r < 300) (h : F.T.f.code c.s.pos = ⟨.bitn, r, r⟩) (hv : c.s.stack (ra F r) = .imm w)
    (hi : isInt w = true) : One F.A.ok c.s (c.reg F r (.imm (numBitn w)) (c.s.pos + 1)).s := by
  have h1 := rd_reg x g hr
  rw [hv] at h1
  exact ⟨(raw_bitn c.s _ _ _ (raw g.f hp h) h1 hi).trans (wr_reg x g hr _), mild_easy g.f h rfl⟩

omit x in
theorem step_jmp {e : Int} (h : F.T.f.code c.s.pos = ⟨.jmp, e, 0⟩) :
    One F.A.ok c.s (c.go ((c.s.pos : Int) + e + 1).toNat).s := ⟨raw_jmp c.s _ _ (raw g.f hp h), mild_easy g.f h rfl⟩

theorem step_testjmp {r : Nat} {e : Int} {v : Val} (hr : r < 300) (h : F.T.f.code c.s.pos = ⟨.testjmp, r, e⟩) (hv : c.s.stack (ra F r) = v)
    (hn : F.A.ok.unset = false → ∀ p, v ≠ .fn p) :
    One F.A.ok c.s (c.go (if vtest v then ((c.s.pos : Int) + e + 1).toNat else c.s.pos + 1)).s := by
  have h1 := rd_reg x g hr
  rw [hv] at h1
  refine ⟨raw_testjmp c.s _ _ _ (raw g.f hp h) h1, ?_⟩
  unfold Mild
  rw [g.f, h]
  intro i0 hu p hh
  rw [h1] at hh
  exact hn hu p (Option.some.inj hh)

theorem step_notjmp {r : Nat} {e : Int} {v : Val} (hr : r < 300) (h : F.T.f.code c.s.pos = ⟨.notjmp, r, e⟩) (hv : c.s.stack (ra F r) = v)
    (hn : F.A.ok.unset = false → ∀ p, v ≠ .fn p) :
    One F.A.ok c.s (c.go (if vtest v then c.s.pos + 1 else ((c.s.pos : Int) + e + 1).toNat)).s := by
  have h1 := rd_reg x g hr
  rw [hv] at h1
  refine ⟨raw_notjmp c.s _ _ _ (raw g.f hp h) h1, ?_⟩
  unfold Mild
  rw [g.f, h]
  intro i0 hu p hh
  rw [h1] at hh
  exact hn hu p (Option.some.inj hh)

/-- An integer operator. -/
theorem step_arith {r : Nat} {o : Op} {i j k : Int} {w w' : PN} (hr : r < 299) (h : F.T.f.code c.s.pos = ⟨(opNode o).opc, r, (r+1 : Nat)⟩)
    (h1 : c.s.stack (ra F r) = .imm w) (h2 : c.s.stack (ra F (r+1)) = .imm w') (d1 : Denotes w i) (d2 : Denotes w' j)
    (ha : arithVal o i j = some k) (hk : o = .over ∨ o = .mod → F.A.ok.arith o i j = true) : ∃ v, Denotes v k ∧ One F.A.ok c.s (c.reg F r (.imm v) (c.s.pos + 1)).s := by
  have b1 := isInt_odd d1
  have b2 := isInt_odd d2
  have R1 := rd_reg x g (show r < 300 by omega)
  have R2 := rd_reg x g (show r + 1 < 300 by omega)
  rw [h1] at R1; rw [h2] at R2
  have go := raw_arith c.s o _ _ (raw g.f hp h)
  have three : ∀ op, ((op = .add ∧ o = .plus) ∨ (op = .sub ∧ o = .minus) ∨ (op = .mul ∧ o = .times)) →
      ∃ v, Denotes v k ∧ c.s.math op true ⟨(opNode o).opc, r, (r+1 : Nat)⟩ = c.s.setReg (r : Int) (.imm v) := by
    intro op ho
    have ⟨v, e, d⟩ := math3_ok d1 d2 op o ho ha
    refine ⟨v, d, ?_⟩
    simp only [State.math, R1, R2, b1, b2, Bool.and_self, if_true, e]
  have two : ∀ op, ((op = .div ∧ o = .over) ∨ (op = .rem ∧ o = .mod) ∨ (op = .shl ∧ o = .shl) ∨ (op = .shr ∧ o = .shr)) →
      ∃ v, Denotes v k ∧ c.s.math op false ⟨(opNode o).opc, r, (r+1 : Nat)⟩ = c.s.setReg (r : Int) (.imm v) := by
    intro op ho
    have ⟨v, e, d⟩ := math2_ok d1 d2 op o ho ha
    refine ⟨v, d, ?_⟩
    simp only [State.math, R1, R2, b1, b2, Bool.and_self, if_true, e, Bool.false_eq_true, if_false]
  have fin : ∀ m, c.s.step = m → (∃ v, Denotes v k ∧ m = c.s.setReg (r : Int) (.imm v)) →
      ∃ v, Denotes v k ∧ One F.A.ok c.s (c.reg F r (.imm v) (c.s.pos + 1)).s := by
    rintro m hm ⟨v, d, e⟩
    have st := (hm.trans e).trans (wr_reg x g (show r < 300 by omega) (.imm v))
    refine ⟨v, d, st, ?_⟩
    have op : ∀ x y, c.s.rd c.s.rbase (r : Int) = some (.imm x) → c.s.rd c.s.rbase (r + 1 : Nat) = some (.imm y) → x = w ∧ y = w' := by
      intro x y hx hy
      rw [R1] at hx; rw [R2] at hy
      cases hx; cases hy
      exact ⟨rfl, rfl⟩
    have hh : ∀ t, c.s.step = .run t → t.heap = c.s.heap := by
      intro t ht
      rw [st] at ht
      cases ht
      rfl
    unfold Mild
    rw [g.f, h]
    cases o
    · exact hh
    · exact hh
    · exact hh
    · intro i0 x y hx hy
      obtain ⟨rfl, rfl⟩ := op x y hx hy
      exact ⟨i, j, k, d1, d2, ha, hk (.inl rfl)⟩
    · intro i0 x y hx hy
      obtain ⟨rfl, rfl⟩ := op x y hx hy
      exact ⟨i, j, k, d1, d2, ha, hk (.inr rfl)⟩
    · trivial
    · trivial
  cases o
  · exact fin _ go (three .add (by simp))
  · exact fin _ go (three .sub (by simp))
  · exact fin _ go (three .mul (by simp))
  · exact fin _ go (two .div (by simp))
  · exact fin _ go (two .rem (by simp))
  · exact fin _ go (two .shl (by simp))
  · exact fin _ go (two .shr (by simp))

theorem step_rel {r : Nat} {o : Rel} {i j : Int} {w w' : PN} (hr : r < 299) (h : F.T.f.code c.s.pos = ⟨(relNode o).opc, r, (r+1 : Nat)⟩)
    (h1 : c.s.stack (ra F r) = .imm w) (h2 : c.s.stack (ra F (r+1)) = .imm w') (d1 : Denotes w i) (d2 : Denotes w' j)
    (hs : sameSign i j = true) : One F.A.ok c.s (c.reg F r (.imm (pnBool (o.holds i j))) (c.s.pos + 1)).s := by
  have b1 := isInt_odd d1
  have b2 := isInt_odd d2
  have R1 := rd_reg x g (show r < 300 by omega)
  have R2 := rd_reg x g (show r + 1 < 300 by omega)
  rw [h1] at R1; rw [h2] at R2
  have go := raw_rel c.s o _ _ (raw g.f hp h)
  have e : c.s.ncmp (relOp o) ⟨(relNode o).opc, r, (r+1 : Nat)⟩ = c.s.setReg (r : Int) (.imm (pnBool (o.holds i j))) := by
    simp only [State.ncmp, R1, R2, b1, b2, Bool.and_self, if_true, numcmp_same d1 d2 hs]
  refine ⟨(go.trans e).trans (wr_reg x g (by omega) _), ?_⟩
  have hm : w.msb = w'.msb := by
    have e1 := denotes_msb d1
    have e2 := denotes_msb d2
    rw [e1, e2]
    unfold sameSign at hs
    simp only [decide_eq_true_eq] at hs
    simp only [decide_eq_decide]
    omega
  have op : ∀ x y, c.s.rd c.s.rbase (r : Int) = some (.imm x) → c.s.rd c.s.rbase (r + 1 : Nat) = some (.imm y) → x.msb = y.msb := by
    intro x y hx hy
    rw [R1] at hx; rw [R2] at hy
    cases hx; cases hy
    exact hm
  unfold Mild
  rw [g.f, h]
  cases o <;> exact op

theorem step_eq {r : Nat} {neg : Bool} {v v' : V} {w w' : PN} {q : Bool} (hr : r < 299)
    (h : F.T.f.code c.s.pos = ⟨(if neg then BinOp.neq else BinOp.eq).opc, r, (r+1 : Nat)⟩)
    (h1 : c.s.stack (ra F r) = .imm w) (h2 : c.s.stack (ra F (r+1)) = .imm w') (d1 : RV v w) (d2 : RV v' w') (hq : v.same v' = some q) :
    One F.A.ok c.s (c.reg F r (.imm (pnBool (q != neg))) (c.s.pos + 1)).s := by
  have R1 := rd_reg x g (show r < 300 by omega)
  have R2 := rd_reg x g (show r + 1 < 300 by omega)
  rw [h1] at R1; rw [h2] at R2
  have go := raw_eq c.s neg _ _ (raw g.f hp h)
  have e : c.s.veq (!neg) ⟨(if neg then BinOp.neq else BinOp.eq).opc, r, (r+1 : Nat)⟩ =
      c.s.setReg (r : Int) (.imm (pnBool (q != neg))) := by
    simp only [State.veq, R1, R2]
    have : ((w == w') == !neg) = (q != neg) := by
      rw [RV.same d1 d2 hq]; cases q <;> cases neg <;> rfl
    rw [this]
  refine ⟨(go.trans e).trans (wr_reg x g (by omega) _), ?_⟩
  have op : ∀ x y, c.s.rd c.s.rbase (r : Int) = some (.imm x) → c.s.rd c.s.rbase (r + 1 : Nat) = some (.imm y) → Plainly x ∧ Plainly y := by
    intro x y hx hy
    rw [R1] at hx; rw [R2] at hy
    cases hx; cases hy
    exact ⟨⟨_, d1⟩, ⟨_, d2⟩⟩
  unfold Mild
  rw [g.f, h]
  cases neg <;> exact op

theorem step_add {r : Nat} {i j k : Int} {w w' : PN} (hr : r < 299) (h : F.T.f.code c.s.pos = ⟨.add, r, (r+1 : Nat)⟩)
    (h1 : c.s.stack (ra F r) = .imm w) (h2 : c.s.stack (ra F (r+1)) = .imm w') (d1 : Denotes w i) (d2 : Denotes w' j)
    (ha : arithVal .plus i j = some k) : ∃ v, Denotes v k ∧ One F.A.ok c.s (c.reg F r (.imm v) (c.s.pos + 1)).s :=
  step_arith x g hp hr (o := .plus) h h1 h2 d1 d2 ha (by simp)

end

end Potion.Compile
