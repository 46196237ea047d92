import Verif.Model.Ast
import Mathlib.Data.List.Forall2
/-!
The shape of compiled code, and the proof that `comp` produces it.
-/
namespace Potion.Compile
open Potion Potion.Vm

/-- Registers a tree needs above the one it is compiled for. -/
def width : Src → Nat
  | .skip => 0
  | .seq a b => max (width a) (width b)
  | .chain a b => max (width a) (width b)
  | .value _ => 0
  | .msg _ => 0
  | .paren a => width a
  | .assign _ e => width e
  | .inc _ _ => 2
  | .bin _ a b => max (width a) (width b + 1)
  | .not a => width a
  | .wavy a => width a
  | .and a b => max (width a) (width b)
  | .or a b => max (width a) (width b)
  | .ifm c b => max (width c + 1) (width b)
  | .elsifm c b => max (width c + 1) (width b)
  | .elsem b => max 1 (width b)
  | .whilem c b => max (width c + 1) (width b)
  | .loopm b => max 1 (width b)
  | .retv a => width a
  | .ret0 => 0
  | .brk => 0
  | .cont => 0
  | .self => 0
  | .fn _ b => width b
  | .call _ as => width as + 2
  | .anil => 0
  | .acons a as => max (width a) (width as + 1)

/-- A compiled function with the names of its locals and upvalues. -/
structure Tgt where
  f : Proto
  L : List Name
  U : List Name

/-- `x` is upvalue (`up`) or local number `i`. -/
def VarAt (T : Tgt) (x : Name) (up : Bool) (i : Nat) : Prop :=
  if up then x ∈ T.U ∧ i = T.U.idxOf x else x ∈ T.L ∧ i = T.L.idxOf x

/-- `T` is a function with parameters `ps` and `e + 1` instructions, the last being RET. -/
structure Head (T : Tgt) (ps : List Name) (e : Nat) : Prop where
  up : T.f.upvalsize = T.U.length
  loc : T.f.localsize = T.L.length
  nd : T.L.Nodup
  pre : ps.foldl (fun l p => (put l p).1) [] <+: T.L
  params : T.f.params = ps.map (ps.foldl (fun l p => (put l p).1) []).idxOf
  minargs : T.f.minargs = ps.length
  dis : ∀ x ∈ T.U, x ∉ T.L
  len : T.f.len = e + 1
  ret : T.f.code e = ⟨.ret, 0, 0⟩

/-- Instructions `p..q` of `T` are the code of `t` for register `reg`, with break and continue targets `lp`. -/
def CodeAt (T : Tgt) : Src → Option (Nat × Nat) → (reg p q : Nat) → Prop
  | .skip, _, _, p, q => q = p
  | .seq a b, lp, r, p, q => ∃ m, CodeAt T a lp r p m ∧ CodeAt T b lp r m q
  | .chain a b, lp, r, p, q => ∃ m, CodeAt T a lp r p m ∧ CodeAt T b lp r m q
  | .value v, _, r, p, q => q = p + 1 ∧ ((∃ b, T.f.code p = ⟨.loadpn, r, b⟩ ∧ BitVec.ofInt 64 b = v) ∨
      ∃ i : Nat, T.f.code p = ⟨.loadk, r, i⟩ ∧ T.f.values[i]? = some v)
  | .msg x, _, r, p, q => q = p + 1 ∧ ∃ up i, VarAt T x up i ∧ T.f.code p = ⟨getOp up, r, (i : Nat)⟩
  | .paren a, lp, r, p, q => CodeAt T a lp r p q
  | .assign x e, lp, r, p, q => ∃ m, CodeAt T e lp r p m ∧ (∃ up i, VarAt T x up i ∧ T.f.code m = ⟨setOp up, r, (i : Nat)⟩) ∧ q = m + 1
  | .inc x n, _, r, p, q => ∃ up i, VarAt T x up i ∧ T.f.code p = ⟨getOp up, r, (i : Nat)⟩ ∧
      (if isInt n then
        T.f.code (p+1) = ⟨.move, (r+1 : Nat), r⟩ ∧ T.f.code (p+2) = ⟨.loadpn, (r+2 : Nat), trunc12 (n ||| 1#64).toInt⟩ ∧
        T.f.code (p+3) = ⟨.add, (r+1 : Nat), (r+2 : Nat)⟩ ∧ T.f.code (p+4) = ⟨setOp up, (r+1 : Nat), (i : Nat)⟩ ∧ q = p + 5
      else
        T.f.code (p+1) = ⟨.loadpn, (r+1 : Nat), trunc12 (n ||| 1#64).toInt⟩ ∧
        T.f.code (p+2) = ⟨.add, r, (r+1 : Nat)⟩ ∧ T.f.code (p+3) = ⟨setOp up, r, (i : Nat)⟩ ∧ q = p + 4)
  | .bin op a b, lp, r, p, q => ∃ m n, CodeAt T a lp r p m ∧ CodeAt T b lp (r+1) m n ∧
      T.f.code n = ⟨op.opc, r, (r+1 : Nat)⟩ ∧ q = n + 1
  | .not a, lp, r, p, q => ∃ m, CodeAt T a lp r p m ∧ T.f.code m = ⟨.not, r, r⟩ ∧ q = m + 1
  | .wavy a, lp, r, p, q => ∃ m, CodeAt T a lp r p m ∧ T.f.code m = ⟨.bitn, r, r⟩ ∧ q = m + 1
  | .and a b, lp, r, p, q => ∃ m, CodeAt T a lp r p m ∧ T.f.code m = ⟨.notjmp, r, (q : Int) - m - 1⟩ ∧ CodeAt T b lp r (m+1) q
  | .or a b, lp, r, p, q => ∃ m, CodeAt T a lp r p m ∧ T.f.code m = ⟨.testjmp, r, (q : Int) - m - 1⟩ ∧ CodeAt T b lp r (m+1) q
  | .ifm c b, lp, r, p, q => ∃ m, CodeAt T c lp (r+1) p m ∧ T.f.code m = ⟨.notjmp, (r+1 : Nat), (q : Int) - m - 1⟩ ∧
      CodeAt T b lp r (m+1) q
  | .elsifm c b, lp, r, p, q => T.f.code p = ⟨.testjmp, (r+1 : Nat), (q : Int) - p - 1⟩ ∧
      ∃ m, CodeAt T c lp (r+1) (p+1) m ∧ T.f.code m = ⟨.notjmp, (r+1 : Nat), (q : Int) - m - 1⟩ ∧ CodeAt T b lp r (m+1) q
  | .elsem b, lp, r, p, q => T.f.code p = ⟨.testjmp, (r+1 : Nat), (q : Int) - p - 1⟩ ∧ CodeAt T b lp r (p+1) q
  | .whilem c b, lp, r, p, q => ∃ m e, CodeAt T c lp (r+1) p m ∧ T.f.code m = ⟨.notjmp, (r+1 : Nat), (q : Int) - m - 1⟩ ∧
      CodeAt T b (some (q, p)) r (m+1) e ∧ T.f.code e = ⟨.jmp, (p : Int) - e - 1, 0⟩ ∧ q = e + 1
  | .loopm b, _, r, p, q => ∃ e, CodeAt T b (some (q, p)) r p e ∧ T.f.code e = ⟨.jmp, (p : Int) - e - 1, 0⟩ ∧ q = e + 1
  | .retv a, lp, r, p, q => ∃ m, CodeAt T a lp r p m ∧ T.f.code m = ⟨.ret, r, 0⟩ ∧ q = m + 1
  | .ret0, _, r, p, q => T.f.code p = ⟨.loadpn, r, 0⟩ ∧ T.f.code (p+1) = ⟨.ret, r, 0⟩ ∧ q = p + 2
  | .brk, lp, _, p, q => q = p + 1 ∧ ∃ bt ct, lp = some (bt, ct) ∧ T.f.code p = ⟨.jmp, (bt : Int) - p - 1, 0⟩
  | .cont, lp, _, p, q => q = p + 1 ∧ ∃ bt ct, lp = some (bt, ct) ∧ T.f.code p = ⟨.jmp, (ct : Int) - p - 1, 0⟩
  | .self, _, r, p, q => q = p + 1 ∧ T.f.code p = ⟨.self, r, 0⟩
  | .fn ps b, _, r, p, q => ∃ (i : Nat) (g : Tgt) (e : Nat), T.f.code p = ⟨.proto, r, i⟩ ∧ T.f.protos[i]? = some g.f ∧ Head g ps e ∧
      CodeAt g b none 0 0 e ∧ q = p + 1 + g.U.length ∧
      ∀ (j : Nat) x, g.U[j]? = some x → ∃ up k, VarAt T x up k ∧ T.f.code (p + 1 + j) = ⟨getOp up, r, (k : Nat)⟩
  | .call x as, lp, r, p, q => (∃ up i, VarAt T x up i ∧ T.f.code p = ⟨getOp up, r, (i : Nat)⟩) ∧ T.f.code (p+1) = ⟨.self, (r+1 : Nat), 0⟩ ∧
      r < T.f.stack ∧ ∃ m, CodeAt T as lp (r+2) (p+2) m ∧ T.f.code m = ⟨.call, r, (r + 1 + argc as : Nat)⟩ ∧ q = m + 1
  | .anil, _, _, p, q => q = p
  | .acons a as, lp, r, p, q => ∃ m, CodeAt T a lp r p m ∧ CodeAt T as lp (r+1) m q

/-- The code with the pending jumps resolved. -/
def fin (st : CSt) (lp : Option (Nat × Nat)) (k : Nat) : Ins :=
  match st.loop, lp with
  | some (bs, cs), some (bt, ct) =>
    if k ∈ cs then { st.code k with a := trunc12 ((ct : Int) - k - 1) }
    else if k ∈ bs then { st.code k with a := trunc12 ((bt : Int) - k - 1) }
    else st.code k
  | _, _ => st.code k

/-- Upvalues are no locals, and come from the next function around; the main program has none. -/
def Linked : List (List Name × List Name) → Prop
  | [] => True
  | [(_, us)] => us = []
  | (ls, us) :: (ls', us') :: r => (∀ x ∈ us, x ∉ ls ∧ (x ∈ ls' ∨ x ∈ us')) ∧ Linked ((ls', us') :: r)

def CSt.chain (st : CSt) : List (List Name × List Name) := (st.locals, st.upvals) :: st.outer

/-- Pending jumps lie in the code, and upvalues come from outside. -/
def JOk (st : CSt) : Prop :=
  (∀ bs cs, st.loop = some (bs, cs) → (∀ k ∈ bs, k < st.len) ∧ ∀ k ∈ cs, k < st.len) ∧ Linked st.chain

/-- How the rest of a state grows. -/
structure Rest (st st' : CSt) : Prop where
  ups : st.upvals <+: st'.upvals
  protos : st.protos <+: st'.protos
  stack : st.stack ≤ st'.stack
  linked : Linked st.chain → Linked st'.chain
  outer : List.Forall₂ (fun a b : List Name × List Name => a.1 = b.1 ∧ a.2 <+: b.2) st.outer st'.outer

/-- How a state grows. -/
structure Grow (st st' : CSt) : Prop where
  len : st.len ≤ st'.len
  code : ∀ k, k < st.len → st'.code k = st.code k
  locals : st.locals <+: st'.locals
  nodup : st.locals.Nodup → st'.locals.Nodup
  values : st.values <+: st'.values
  rest : Rest st st'
  loop : (st.loop = none ∧ st'.loop = none) ∨ ∃ bs cs bs' cs', st.loop = some (bs, cs) ∧
    st'.loop = some (bs ++ bs', cs ++ cs') ∧ (∀ k ∈ bs', st.len ≤ k ∧ k < st'.len) ∧ ∀ k ∈ cs', st.len ≤ k ∧ k < st'.len

theorem outer_refl (o : List (List Name × List Name)) :
    List.Forall₂ (fun a b : List Name × List Name => a.1 = b.1 ∧ a.2 <+: b.2) o o :=
  List.forall₂_same.2 fun _ _ => ⟨rfl, List.prefix_refl _⟩

theorem outer_trans : ∀ {a b c : List (List Name × List Name)},
    List.Forall₂ (fun a b : List Name × List Name => a.1 = b.1 ∧ a.2 <+: b.2) a b →
    List.Forall₂ (fun a b : List Name × List Name => a.1 = b.1 ∧ a.2 <+: b.2) b c →
    List.Forall₂ (fun a b : List Name × List Name => a.1 = b.1 ∧ a.2 <+: b.2) a c
  | _, _, _, .nil, .nil => .nil
  | _, _, _, .cons h t, .cons h' t' => .cons ⟨h.1.trans h'.1, h.2.trans h'.2⟩ (outer_trans t t')

theorem Rest.of {st st' : CSt} (h1 : st'.upvals = st.upvals) (h2 : st'.protos = st.protos) (h3 : st.stack ≤ st'.stack)
    (h4 : st'.locals = st.locals) (h5 : st'.outer = st.outer) : Rest st st' :=
  ⟨by rw [h1]; exact List.prefix_refl _, by rw [h2]; exact List.prefix_refl _, h3, by unfold CSt.chain; rw [h1, h4, h5]; exact id,
    by rw [h5]; exact outer_refl _⟩

theorem Rest.refl (st : CSt) : Rest st st := .of rfl rfl (Nat.le_refl _) rfl rfl

theorem Rest.trans {a b c : CSt} (h : Rest a b) (h' : Rest b c) : Rest a c :=
  ⟨h.ups.trans h'.ups, h.protos.trans h'.protos, Nat.le_trans h.stack h'.stack, fun x => h'.linked (h.linked x), outer_trans h.outer h'.outer⟩

theorem Grow.refl (st : CSt) : Grow st st := by
  refine ⟨Nat.le_refl _, fun _ _ => rfl, List.prefix_refl _, id, List.prefix_refl _, Rest.refl _, ?_⟩
  rcases h : st.loop with _ | ⟨bs, cs⟩
  · exact .inl ⟨rfl, rfl⟩
  · exact .inr ⟨bs, cs, [], [], rfl, by simp, by simp, by simp⟩

theorem Grow.trans {a b c : CSt} (h : Grow a b) (h' : Grow b c) : Grow a c := by
  refine ⟨Nat.le_trans h.len h'.len, fun k hk => ?_, h.locals.trans h'.locals, fun x => h'.nodup (h.nodup x),
    h.values.trans h'.values, h.rest.trans h'.rest, ?_⟩
  · rw [h'.code k (Nat.lt_of_lt_of_le hk h.len), h.code k hk]
  · have l1 := h.len
    have l2 := h'.len
    rcases h.loop with ⟨x, y⟩ | ⟨bs, cs, bs', cs', e1, e2, i1, i2⟩
    · rcases h'.loop with ⟨x', y'⟩ | ⟨bs, cs, bs', cs', e1, e2, i1, i2⟩
      · exact .inl ⟨x, y'⟩
      · rw [y] at e1; simp at e1
    · rcases h'.loop with ⟨x', y'⟩ | ⟨b1, c1, b1', c1', f1, f2, j1, j2⟩
      · rw [x'] at e2; simp at e2
      · rw [e2] at f1
        obtain ⟨rfl, rfl⟩ := by simpa using f1
        refine .inr ⟨bs, cs, bs' ++ b1', cs' ++ c1', e1, by simp [f2, List.append_assoc], ?_, ?_⟩
        · intro k hk
          rcases List.mem_append.1 hk with hk | hk
          · have := i1 k hk; omega
          · have := j1 k hk; omega
        · intro k hk
          rcases List.mem_append.1 hk with hk | hk
          · have := i2 k hk; omega
          · have := j2 k hk; omega

theorem Grow.jok {a b : CSt} (h : Grow a b) (ha : JOk a) : JOk b := by
  refine ⟨?_, h.rest.linked ha.2⟩
  intro bs cs e
  have l1 := h.len
  rcases h.loop with ⟨x, y⟩ | ⟨b1, c1, bs', cs', e1, e2, i1, i2⟩
  · rw [y] at e; simp at e
  · rw [e2] at e
    obtain ⟨rfl, rfl⟩ := by simpa using e
    have ⟨p, q⟩ := ha.1 _ _ e1
    refine ⟨fun k hk => ?_, fun k hk => ?_⟩
    · rcases List.mem_append.1 hk with hk | hk
      · have := p k hk; omega
      · have := i1 k hk; omega
    · rcases List.mem_append.1 hk with hk | hk
      · have := q k hk; omega
      · have := i2 k hk; omega

/-- Resolved older code does not change. -/
theorem Grow.fin {a b : CSt} (h : Grow a b) (lp) (k : Nat) (hk : k < a.len) : fin b lp k = fin a lp k := by
  unfold Compile.fin
  rcases h.loop with ⟨x, y⟩ | ⟨b1, c1, bs', cs', e1, e2, i1, i2⟩
  · rw [x, y]; exact h.code k hk
  · rw [e1, e2]
    rcases lp with _ | ⟨bt, ct⟩
    · exact h.code k hk
    · simp only []
      rw [h.code k hk]
      have n1 : k ∉ bs' := fun hh => by have := i1 k hh; omega
      have n2 : k ∉ cs' := fun hh => by have := i2 k hh; omega
      simp [n1, n2]

/-- An instruction appended at `len`. -/
theorem asm_grow (st : CSt) (op a b) : Grow st (st.asm op a b) := by
  refine ⟨by simp [CSt.asm], fun k hk => ?_, List.prefix_refl _, id, List.prefix_refl _, .of rfl rfl (Nat.le_refl _) rfl rfl, ?_⟩
  · simp only [CSt.asm]; rw [if_neg (by omega)]
  · rcases h : st.loop with _ | ⟨bs, cs⟩
    · exact .inl ⟨rfl, h⟩
    · exact .inr ⟨bs, cs, [], [], rfl, by simp [CSt.asm, h], by simp, by simp⟩

theorem regs_grow (st : CSt) (r) : Grow st (st.regs r) := by
  unfold CSt.regs
  split
  · have := Grow.refl st
    exact ⟨this.len, this.code, this.locals, this.nodup, this.values, .of rfl rfl (by show st.stack ≤ r + 1; omega) rfl rfl, this.loop⟩
  · exact Grow.refl st

theorem regs_eq (st : CSt) (r) : (st.regs r).len = st.len ∧ (st.regs r).code = st.code ∧ (st.regs r).loop = st.loop ∧
    (st.regs r).locals = st.locals ∧ (st.regs r).values = st.values ∧ (st.regs r).upvals = st.upvals ∧ (st.regs r).protos = st.protos ∧
    (st.regs r).outer = st.outer ∧ (st.regs r).next = st.next := by
  unfold CSt.regs; split <;> simp

@[simp] theorem regs_len (st : CSt) (r) : (st.regs r).len = st.len := (regs_eq st r).1
@[simp] theorem regs_code (st : CSt) (r) : (st.regs r).code = st.code := (regs_eq st r).2.1
@[simp] theorem regs_loop (st : CSt) (r) : (st.regs r).loop = st.loop := (regs_eq st r).2.2.1
@[simp] theorem regs_locals (st : CSt) (r) : (st.regs r).locals = st.locals := (regs_eq st r).2.2.2.1
@[simp] theorem regs_values (st : CSt) (r) : (st.regs r).values = st.values := (regs_eq st r).2.2.2.2.1
@[simp] theorem regs_upvals (st : CSt) (r) : (st.regs r).upvals = st.upvals := (regs_eq st r).2.2.2.2.2.1
@[simp] theorem regs_protos (st : CSt) (r) : (st.regs r).protos = st.protos := (regs_eq st r).2.2.2.2.2.2.1
@[simp] theorem regs_outer (st : CSt) (r) : (st.regs r).outer = st.outer := (regs_eq st r).2.2.2.2.2.2.2.1
@[simp] theorem regs_next (st : CSt) (r) : (st.regs r).next = st.next := (regs_eq st r).2.2.2.2.2.2.2.2
theorem regs_lt (st : CSt) (r) : r < (st.regs r).stack := by
  unfold CSt.regs
  split
  · show r < r + 1; omega
  · omega
@[simp] theorem regs_fin (st : CSt) (r lp k) : fin (st.regs r) lp k = fin st lp k := by simp [fin]
@[simp] theorem asm_len (st : CSt) (op a b) : (st.asm op a b).len = st.len + 1 := rfl
@[simp] theorem asm_loop (st : CSt) (op a b) : (st.asm op a b).loop = st.loop := rfl
@[simp] theorem asm_locals (st : CSt) (op a b) : (st.asm op a b).locals = st.locals := rfl
@[simp] theorem asm_values (st : CSt) (op a b) : (st.asm op a b).values = st.values := rfl
@[simp] theorem asm_upvals (st : CSt) (op a b) : (st.asm op a b).upvals = st.upvals := rfl
@[simp] theorem asm_protos (st : CSt) (op a b) : (st.asm op a b).protos = st.protos := rfl
@[simp] theorem asm_outer (st : CSt) (op a b) : (st.asm op a b).outer = st.outer := rfl
@[simp] theorem asm_stack (st : CSt) (op a b) : (st.asm op a b).stack = st.stack := rfl
@[simp] theorem asm_next (st : CSt) (op a b) : (st.asm op a b).next = st.next := rfl
@[simp] theorem patchB_len (st : CSt) (i d) : (st.patchB i d).len = st.len := rfl
@[simp] theorem patchB_loop (st : CSt) (i d) : (st.patchB i d).loop = st.loop := rfl
@[simp] theorem patchB_locals (st : CSt) (i d) : (st.patchB i d).locals = st.locals := rfl
@[simp] theorem patchB_values (st : CSt) (i d) : (st.patchB i d).values = st.values := rfl

theorem asm_code (st : CSt) (op a b) : (st.asm op a b).code st.len = ⟨op, trunc12 a, trunc12 b⟩ := by simp [CSt.asm]

/-- A position that is not a pending jump. -/
theorem fin_plain {st : CSt} (lp) (k : Nat) (h : ∀ bs cs, st.loop = some (bs, cs) → k ∉ bs ∧ k ∉ cs) :
    fin st lp k = st.code k := by
  unfold fin
  rcases hl : st.loop with _ | ⟨bs, cs⟩
  · rfl
  · rcases lp with _ | ⟨bt, ct⟩
    · rfl
    · have := h bs cs hl
      simp [this.1, this.2]

theorem asm_fin {st : CSt} (h : JOk st) (op a b lp) : fin (st.asm op a b) lp st.len = ⟨op, trunc12 a, trunc12 b⟩ := by
  rw [fin_plain, asm_code]
  intro bs cs e
  have ⟨p, q⟩ := h.1 bs cs e
  exact ⟨fun hk => by have := p _ hk; omega, fun hk => by have := q _ hk; omega⟩

/-- `j` stays free of pending jumps when it was an ordinary instruction. -/
theorem grow_plain {st st' : CSt} (h : Grow st st') (j : Nat) (hj : j < st.len)
    (hp : ∀ bs cs, st.loop = some (bs, cs) → j ∉ bs ∧ j ∉ cs) : ∀ bs cs, st'.loop = some (bs, cs) → j ∉ bs ∧ j ∉ cs := by
  intro bs cs e
  rcases h.loop with ⟨x, y⟩ | ⟨b1, c1, bs', cs', e1, e2, i1, i2⟩
  · rw [y] at e; simp at e
  · rw [e2] at e
    obtain ⟨rfl, rfl⟩ := by simpa using e
    have ⟨p, q⟩ := hp _ _ e1
    refine ⟨fun hk => ?_, fun hk => ?_⟩
    · rcases List.mem_append.1 hk with hk | hk
      · exact p hk
      · have := i1 _ hk; omega
    · rcases List.mem_append.1 hk with hk | hk
      · exact q hk
      · have := i2 _ hk; omega

/-- Patching above an older state. -/
theorem patchB_grow {st st' : CSt} (h : Grow st st') (j : Nat) (hj : st.len ≤ j) (d) : Grow st (st'.patchB j d) := by
  refine ⟨h.len, fun k hk => ?_, h.locals, h.nodup, h.values, h.rest.trans (.of rfl rfl (Nat.le_refl _) rfl rfl), h.loop⟩
  simp only [CSt.patchB]
  rw [if_neg (by omega), h.code k hk]

theorem patchB_fin_ne (st : CSt) (j : Nat) (d lp) (k : Nat) (hk : k ≠ j) : fin (st.patchB j d) lp k = fin st lp k := by
  simp [fin, CSt.patchB, hk]

theorem patchB_fin {st : CSt} (j : Nat) (d lp) (h : ∀ bs cs, st.loop = some (bs, cs) → j ∉ bs ∧ j ∉ cs) :
    fin (st.patchB j d) lp j = { st.code j with b := trunc12 d } := by
  rw [fin_plain lp j (st := st.patchB j d) h]; simp [CSt.patchB]

/-- `patchAll` sets the offsets of the listed jumps. -/
theorem patchAll_eq (l : List Nat) (t : Int) : ∀ st : CSt, (st.patchAll t l).len = st.len ∧ (st.patchAll t l).loop = st.loop ∧
    (st.patchAll t l).locals = st.locals ∧ (st.patchAll t l).values = st.values ∧
    ((st.patchAll t l).upvals = st.upvals ∧ (st.patchAll t l).protos = st.protos ∧ (st.patchAll t l).stack = st.stack ∧
      (st.patchAll t l).outer = st.outer ∧ (st.patchAll t l).next = st.next) ∧
    ∀ k : Nat, (st.patchAll t l).code k = if k ∈ l then { st.code k with a := trunc12 (t - k - 1) } else st.code k := by
  induction l with
  | nil => intro st; simp [CSt.patchAll]
  | cons i l ih =>
    intro st
    have ⟨h1, h2, h3, h4, h6, h5⟩ := ih (st.patchA i (t - i - 1))
    refine ⟨h1, h2, h3, h4, h6, fun k => ?_⟩
    rw [CSt.patchAll, h5]
    by_cases hki : k = i
    · subst hki; simp [CSt.patchA]
    · simp [CSt.patchA, hki]

theorem trunc12_id {i : Int} (h : -2048 ≤ i) (h' : i < 2048) : trunc12 i = i := by
  simp only [trunc12, Int.bmod]; omega

theorem put_spec {α : Type} [BEq α] [LawfulBEq α] (l : List α) (v : α) : l <+: (put l v).1 ∧ v ∈ (put l v).1 ∧
    (put l v).2 = (put l v).1.idxOf v ∧ (l.Nodup → (put l v).1.Nodup) := by
  unfold put
  split
  · rename_i h; exact ⟨List.prefix_refl _, h, rfl, id⟩
  · rename_i h
    refine ⟨List.prefix_append _ _, by simp, ?_, fun hn => ?_⟩
    · simp [List.idxOf_append, h]
    · rw [List.nodup_append]; simp [hn]; intro a ha e; exact h (e ▸ ha)

theorem put_of_mem {l : List Name} {x : Name} (h : x ∈ l) : (put l x).1 = l := by unfold put; rw [if_pos h]
theorem put_of_not {l : List Name} {x : Name} (h : x ∉ l) : (put l x).1 = l ++ [x] := by unfold put; rw [if_neg h]

theorem pushUp_spec (x : Name) : ∀ (o o' : List (List Name × List Name)) (ls us : List Name), pushUp x o = some o' → x ∉ ls →
    List.Forall₂ (fun a b : List Name × List Name => a.1 = b.1 ∧ a.2 <+: b.2) o o' ∧
    (Linked ((ls, us) :: o) → Linked ((ls, us ++ [x]) :: o'))
  | [], o', ls, us, h, hx => by simp [pushUp] at h
  | (ls', us') :: r, o', ls, us, h, hx => by
    simp only [pushUp] at h
    split at h
    · rename_i hm
      obtain rfl := by simpa using h
      refine ⟨outer_refl _, fun hl => ⟨fun y hy => ?_, hl.2⟩⟩
      rcases List.mem_append.1 hy with hy | hy
      · exact hl.1 y hy
      · obtain rfl := by simpa using hy
        exact ⟨hx, .inl hm⟩
    · rename_i hm
      split at h
      · simp at h
      · rename_i r' hr
        obtain rfl := by simpa using h
        have ⟨i1, i2⟩ := pushUp_spec x r r' ls' us' hr hm
        refine ⟨.cons ⟨rfl, List.prefix_append _ _⟩ i1, fun hl => ⟨fun y hy => ?_, i2 hl.2⟩⟩
        rcases List.mem_append.1 hy with hy | hy
        · have := hl.1 y hy
          exact ⟨this.1, this.2.imp id fun h => List.mem_append_left _ h⟩
        · obtain rfl := by simpa using hy
          exact ⟨hx, .inr (by simp)⟩

/-- States that differ in variables only. -/
structure Same (st st' : CSt) : Prop where
  code : st'.code = st.code
  len : st'.len = st.len
  values : st'.values = st.values
  loop : st'.loop = st.loop
  protos : st'.protos = st.protos
  stack : st'.stack = st.stack

theorem Same.grow {st st' : CSt} (h : Same st st') (h1 : st.locals <+: st'.locals) (h2 : st.locals.Nodup → st'.locals.Nodup)
    (h3 : Rest st st') : Grow st st' := by
  refine ⟨Nat.le_of_eq h.len.symm, fun k _ => by rw [h.code], h1, h2, by rw [h.values]; exact List.prefix_refl _, h3, ?_⟩
  rw [h.loop, h.len]
  exact (Grow.refl st).loop

theorem upval_spec (st : CSt) (x : Name) : Same st (st.upval x).1 ∧ Grow st (st.upval x).1 ∧ (st.upval x).1.locals = st.locals ∧
    (∀ n, (st.upval x).2 = some n → x ∈ (st.upval x).1.upvals ∧ n = (st.upval x).1.upvals.idxOf x) ∧
    ((st.upval x).2 = none → (st.upval x).1 = st ∧ (x ∈ st.locals ∨ x ∉ st.upvals)) := by
  unfold CSt.upval
  split
  · rename_i h
    exact ⟨⟨rfl, rfl, rfl, rfl, rfl, rfl⟩, Grow.refl _, rfl, by simp, by simp [h]⟩
  · rename_i hl
    split
    · rename_i h
      refine ⟨⟨rfl, rfl, rfl, rfl, rfl, rfl⟩, Grow.refl _, rfl, ?_, by simp⟩
      rintro n ⟨rfl⟩
      exact ⟨h, rfl⟩
    · rename_i h
      rcases hp : pushUp x st.outer with _ | out
      · exact ⟨⟨rfl, rfl, rfl, rfl, rfl, rfl⟩, Grow.refl _, rfl, by simp, by simp [h]⟩
      · have ⟨i1, i2⟩ := pushUp_spec x st.outer out st.locals st.upvals hp hl
        have sm : Same st { st with upvals := st.upvals ++ [x], outer := out } := ⟨rfl, rfl, rfl, rfl, rfl, rfl⟩
        refine ⟨sm, sm.grow (List.prefix_refl _) id ⟨List.prefix_append _ _, List.prefix_refl _, Nat.le_refl _, i2, i1⟩, rfl, ?_, by simp⟩
        rintro n ⟨rfl⟩
        refine ⟨by simp, by simp [List.idxOf_append, h]⟩

/-- `x` is upvalue or local number `i` of the function being compiled. -/
def VarOf (st : CSt) (x : Name) (up : Bool) (i : Nat) : Prop :=
  if up then x ∈ st.upvals ∧ i = st.upvals.idxOf x else x ∈ st.locals ∧ i = st.locals.idxOf x

theorem look_spec {st st' : CSt} {x : Name} {up : Bool} {i : Nat} (h : st.look x = some (st', up, i)) :
    Same st st' ∧ Grow st st' ∧ st'.locals = st.locals ∧ VarOf st' x up i := by
  have ⟨s1, g1, l1, u1, u2⟩ := upval_spec st x
  unfold CSt.look at h
  generalize st.upval x = r at *
  obtain ⟨st1, _ | n⟩ := r
  · simp only [] at h
    split at h
    · rename_i hx
      obtain ⟨rfl, rfl, rfl⟩ := by simpa using h
      exact ⟨s1, g1, l1, by simpa [VarOf] using hx⟩
    · simp at h
  · obtain ⟨rfl, rfl, rfl⟩ := by simpa using h
    exact ⟨s1, g1, l1, by simpa [VarOf] using u1 _ rfl⟩

theorem bind_spec (st : CSt) (x : Name) : Same st (st.bind x).1 ∧ Grow st (st.bind x).1 ∧ VarOf (st.bind x).1 x (st.bind x).2.1 (st.bind x).2.2 := by
  have ⟨s1, g1, l1, u1, u2⟩ := upval_spec st x
  unfold CSt.bind
  generalize st.upval x = r at *
  obtain ⟨st1, _ | n⟩ := r
  · obtain ⟨rfl, hx⟩ := u2 rfl
    have ⟨p1, p2, p3, p4⟩ := put_spec st1.locals x
    have sm : Same st1 { st1 with locals := (put st1.locals x).1 } := ⟨rfl, rfl, rfl, rfl, rfl, rfl⟩
    refine ⟨sm, sm.grow p1 p4 ⟨List.prefix_refl _, List.prefix_refl _, Nat.le_refl _, fun hl => ?_, outer_refl _⟩, ?_⟩
    · by_cases hm : x ∈ st1.locals
      · unfold CSt.chain at hl ⊢
        simp only [put_of_mem hm]; exact hl
      · have hx := hx.resolve_left hm
        unfold CSt.chain at hl ⊢
        simp only []
        rcases ho : st1.outer with _ | ⟨⟨ls', us'⟩, r⟩
        · rw [ho] at hl; exact hl
        · rw [ho] at hl
          refine ⟨fun y hy => ⟨fun hy' => ?_, (hl.1 y hy).2⟩, hl.2⟩
          rw [put_of_not hm] at hy'
          rcases List.mem_append.1 hy' with h | h
          · exact (hl.1 y hy).1 h
          · obtain rfl := by simpa using h
            exact hx hy
    · simp only [VarOf, Bool.false_eq_true, if_false]; exact ⟨p2, p3⟩
  · exact ⟨s1, g1, by simpa [VarOf] using u1 _ rfl⟩

theorem idxOf_prefix {α : Type} [BEq α] [LawfulBEq α] {l l' : List α} (h : l <+: l') {x : α} (hx : x ∈ l) : l'.idxOf x = l.idxOf x := by
  obtain ⟨t, rfl⟩ := h
  simp [List.idxOf_append, hx]

end Potion.Compile
