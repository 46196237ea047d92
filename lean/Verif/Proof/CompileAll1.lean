import Verif.Spec.Bytecode
/-!
Invariants of the whole compiler: every instruction emitted so far stays inside the frame being built.
-/
namespace Potion.CompileAll
open Potion Potion.Vm Potion.Peg

theorem trunc_id {i : Int} (h1 : -2048 ≤ i) (h2 : i < 2048) : trunc12 i = i := by
  unfold trunc12; rw [Int.bmod_def]; split <;> omega

theorem same_eq : ∀ {a b : Tree}, same a b = true → a = b
  | .imm _, .imm _, h => by simp only [same, beq_iff_eq] at h; rw [h]
  | .str _, .str _, h => by simp only [same, beq_iff_eq] at h; rw [h]
  | .imm _, .str _, h | .imm _, .dbl _, h | .imm _, .tup _, h | .imm _, .node .., h | .imm _, .stale, h | .imm _, .error, h
  | .imm _, .none, h | .imm _, .pair .., h => by simp [same] at h
  | .str _, .imm _, h | .str _, .dbl _, h | .str _, .tup _, h | .str _, .node .., h | .str _, .stale, h | .str _, .error, h
  | .str _, .none, h | .str _, .pair .., h => by simp [same] at h
  | .dbl _, _, h | .tup _, _, h | .node .., _, h | .stale, _, h | .error, _, h | .none, _, h | .pair .., _, h => by simp [same] at h

theorem find_lt : ∀ {l : List Tree} {v i}, find l v = some i → i < l.length
  | [], _, _, h => by simp [find] at h
  | x :: l, v, i, h => by
    simp only [find] at h
    split at h
    · injection h with h; subst h; simp
    · obtain ⟨j, hj, rfl⟩ := Option.map_eq_some_iff.1 h
      have := find_lt hj; simp; omega

/-- The table holds the word. -/
def Has (l : List Tree) (v : Tree) : Prop := ∃ i, find l v = some i

theorem Has.append {l : List Tree} {v : Tree} (m : List Tree) (h : Has l v) : Has (l ++ m) v := by
  induction l with
  | nil => obtain ⟨i, h⟩ := h; simp [find] at h
  | cons x l ih =>
    obtain ⟨i, h⟩ := h
    simp only [find] at h
    by_cases hx : same x v = true
    · exact ⟨0, by simp [find, hx]⟩
    · rw [if_neg hx] at h
      obtain ⟨j, hj, rfl⟩ := Option.map_eq_some_iff.1 h
      obtain ⟨k, hk⟩ := ih ⟨j, hj⟩
      exact ⟨k + 1, by simp [find, hx, hk]⟩

theorem has_self {l : List Tree} {v : Tree} (h : Has l v) : same v v = true := by
  induction l with
  | nil => obtain ⟨i, h⟩ := h; simp [find] at h
  | cons x l ih =>
    obtain ⟨i, h⟩ := h
    simp only [find] at h
    by_cases hx : same x v = true
    · have := same_eq hx; subst this; exact hx
    · rw [if_neg hx] at h
      obtain ⟨j, hj, rfl⟩ := Option.map_eq_some_iff.1 h
      exact ih ⟨j, hj⟩

theorem has_last {v : Tree} (h : same v v = true) : ∀ l : List Tree, Has (l ++ [v]) v
  | [] => ⟨0, by simp [find, h]⟩
  | x :: l => by
    by_cases hx : same x v = true
    · exact ⟨0, by simp [find, hx]⟩
    · obtain ⟨i, hi⟩ := has_last h l
      exact ⟨i + 1, by simp [find, hx, hi]⟩

/-! ### Invariants -/

/-- Every upvalue is a local or an upvalue of the function around. -/
def Linked : List Tree → List (List Tree × List Tree) → Prop
  | us, [] => us = []
  | us, (ls', us') :: r => (∀ x ∈ us, Has ls' x ∨ Has us' x) ∧ Linked us' r

/-- So far nothing is too large. -/
def CSt.Fits (st : CSt) : Prop :=
  st.over = false ∧ st.len ≤ 2047 ∧ st.locals.length ≤ 2048 ∧ st.upvals.length ≤ 2048 ∧ st.values.length ≤ 2048 ∧
    st.protos.length ≤ 2048

/-- The frame being built, to have `M` registers at least. -/
def CSt.frame (s M : Nat) (st : CSt) : Frame :=
  { stack := max st.stack M + s, locals := st.locals.length, upvals := st.upvals.length, values := st.values.length,
    protos := st.protos.map (·.upvals.length), code := st.code, len := st.len, last := st.len + s }

/-- All functions of `g` stay inside. -/
def Neat (s : Nat) (g : Fn) : Prop := ∀ h, Part h g → h.native = false → h.fits → h.inside s

structure Inv (s M : Nat) (ex : Nat → Prop) (st : CSt) : Prop where
  code : st.Fits → ∀ k < st.len, ¬ ex k → (st.frame s M).ins k
  link : Linked st.upvals st.outer
  loop : ∀ p, st.loop = some p → ∀ k ∈ p.1 ++ p.2, k < st.len ∧ (st.code k).op = .jmp
  nest : ∀ g ∈ st.protos, Neat s g

def no : Nat → Prop := fun _ => False

/-- The functions around have got more upvalues. -/
inductive OuterExt : List (List Tree × List Tree) → List (List Tree × List Tree) → Prop
  | nil : OuterExt [] []
  | cons {ls us us' r r'} : us <+: us' → OuterExt r r' → OuterExt ((ls, us) :: r) ((ls, us') :: r')

theorem OuterExt.refl : ∀ r, OuterExt r r
  | [] => .nil
  | (_, us) :: r => .cons (List.prefix_refl us) (OuterExt.refl r)
theorem OuterExt.trans : ∀ {a b c}, OuterExt a b → OuterExt b c → OuterExt a c
  | _, _, _, .nil, .nil => .nil
  | _, _, _, .cons h r, .cons h' r' => .cons (h.trans h') (r.trans r')

structure Ext (st st' : CSt) : Prop where
  len : st.len ≤ st'.len
  op : ∀ k < st.len, (st'.code k).op = (st.code k).op
  stack : st.stack ≤ st'.stack
  locals : st.locals <+: st'.locals
  upvals : st.upvals <+: st'.upvals
  values : st.values.length ≤ st'.values.length
  protos : st.protos <+: st'.protos
  outer : OuterExt st.outer st'.outer
  over : st'.over = false → st.over = false

theorem Ext.refl (st : CSt) : Ext st st :=
  ⟨Nat.le_refl _, fun _ _ => rfl, Nat.le_refl _, List.prefix_refl _, List.prefix_refl _, Nat.le_refl _, List.prefix_refl _,
    .refl _, id⟩
theorem Ext.trans {a b c : CSt} (h : Ext a b) (h' : Ext b c) : Ext a c :=
  ⟨Nat.le_trans h.len h'.len, fun k hk => (h'.op k (Nat.lt_of_lt_of_le hk h.len)).trans (h.op k hk),
    Nat.le_trans h.stack h'.stack, h.locals.trans h'.locals, h.upvals.trans h'.upvals, Nat.le_trans h.values h'.values,
    h.protos.trans h'.protos, h.outer.trans h'.outer, fun o => h.over (h'.over o)⟩

theorem Ext.fits {a b : CSt} (h : Ext a b) (f : b.Fits) : a.Fits := by
  obtain ⟨f1, f2, f3, f4, f5, f6⟩ := f
  have := h.len; have := h.locals.length_le; have := h.upvals.length_le; have := h.values; have := h.protos.length_le
  exact ⟨h.over f1, by omega, by omega, by omega, by omega, by omega⟩

/-- A larger frame. -/
structure Le (F G : Frame) : Prop where
  stack : F.stack ≤ G.stack
  locals : F.locals ≤ G.locals
  upvals : F.upvals ≤ G.upvals
  values : F.values ≤ G.values
  protos : F.protos <+: G.protos
  len : F.len ≤ G.len
  last : F.last ≤ G.last
  op : ∀ k < F.len, (G.code k).op = (F.code k).op

theorem Frame.reg_mono {F G : Frame} (h : F.stack ≤ G.stack) {x : Int} (hx : F.reg x) : G.reg x :=
  ⟨hx.1, by have := hx.2; omega⟩
theorem Frame.pos_mono {F G : Frame} (h : F.last ≤ G.last) {x : Int} (hx : F.pos x) : G.pos x :=
  ⟨hx.1, by have := hx.2; omega⟩
theorem elem_mono {m n : Nat} (h : m ≤ n) {x : Int} (hx : elem m x) : elem n x := ⟨hx.1, by have := hx.2; omega⟩

theorem Frame.takes_mono {F G : Frame} (h : Le F G) {k n : Nat} (hx : F.takes k n) : G.takes k n := by
  intro j hj
  obtain ⟨h1, h2⟩ := hx j hj
  exact ⟨Nat.lt_of_lt_of_le h1 h.len, by rw [h.op _ h1]; exact h2⟩

theorem Le.ins {F G : Frame} (h : Le F G) {k : Nat} (hc : G.code k = F.code k) (hk : F.ins k) : G.ins k := by
  unfold Frame.ins at hk ⊢
  rw [hc]
  revert hk
  generalize F.code k = i
  obtain ⟨op, a, b⟩ := i
  have R : ∀ {x}, F.reg x → G.reg x := fun hx => Frame.reg_mono h.stack hx
  have P : ∀ {x}, F.pos x → G.pos x := fun hx => Frame.pos_mono h.last hx
  cases op <;> dsimp only <;> intro hk
  case loadk => exact ⟨R hk.1, elem_mono h.values hk.2⟩
  case getlocal => exact ⟨R hk.1, elem_mono h.locals hk.2⟩
  case setlocal => exact ⟨R hk.1, elem_mono h.locals hk.2⟩
  case getupval => exact ⟨R hk.1, elem_mono h.upvals hk.2⟩
  case setupval => exact ⟨R hk.1, elem_mono h.upvals hk.2⟩
  case proto =>
    obtain ⟨ha, n, hb, hp, ht⟩ := hk
    refine ⟨R ha, n, hb, ?_, Frame.takes_mono h ht⟩
    obtain ⟨l, hl⟩ := h.protos
    rw [← hl]
    exact List.getElem?_append_left (List.getElem?_eq_some_iff.1 hp).1 ▸ hp
  case gettuple => exact ⟨R hk.1, hk.2.1, fun hb => R (hk.2.2 hb)⟩
  case newlick => exact ⟨R hk.1, hk.2.1, R hk.2.2⟩
  case call => exact ⟨R hk.1, hk.2.1, R hk.2.2⟩
  case jmp => exact P hk
  case testjmp => exact ⟨R hk.1, P hk.2⟩
  case notjmp => exact ⟨R hk.1, P hk.2⟩
  all_goals first
    | exact hk.elim
    | exact ⟨R hk.1, R hk.2.1, R hk.2.2⟩
    | exact ⟨R hk.1, R hk.2⟩
    | exact R hk

theorem Ext.le {a b : CSt} (h : Ext a b) {s M N : Nat} (hM : M ≤ N) : Le (a.frame s M) (b.frame s N) where
  stack := by have := h.stack; simp only [CSt.frame]; omega
  locals := h.locals.length_le
  upvals := h.upvals.length_le
  values := h.values
  protos := h.protos.map _
  len := h.len
  last := by have := h.len; simp only [CSt.frame]; omega
  op := h.op

theorem prefix_append {α : Type} (a b : List α) : a <+: a ++ b := ⟨b, rfl⟩

/-! ### Steps -/

/-- From `st` to `st'`, with registers up to `N` promised. -/
structure Step (s N : Nat) (st st' : CSt) : Prop where
  ext : Ext st st'
  inv : ∀ M, N ≤ M → Inv s M no st → Inv s M no st'

theorem Step.refl (s N : Nat) (st : CSt) : Step s N st st := ⟨.refl st, fun _ _ h => h⟩
theorem Step.trans {s N : Nat} {a b c : CSt} (h : Step s N a b) (h' : Step s N b c) : Step s N a c :=
  ⟨h.ext.trans h'.ext, fun M hM i => h'.inv M hM (h.inv M hM i)⟩
theorem Step.mono {s N N' : Nat} {a b : CSt} (h : Step s N a b) (hN : N ≤ N') : Step s N' a b :=
  ⟨h.ext, fun M hM i => h.inv M (Nat.le_trans hN hM) i⟩

theorem Inv.raise {s M M' : Nat} {ex} {st : CSt} (h : Inv s M ex st) (hM : M ≤ M') : Inv s M' ex st :=
  ⟨fun f k hk hx => (Ext.le (.refl st) hM).ins rfl (h.code f k hk hx), h.link, h.loop, h.nest⟩

/-- The promise is kept. -/
theorem Step.drop {s N : Nat} {a b : CSt} (h : Step s N a b) (hN : N ≤ b.stack) : Step s 0 a b := by
  refine ⟨h.ext, fun M _ i => ?_⟩
  have := h.inv (max M N) (Nat.le_max_right ..) (i.raise (Nat.le_max_left ..))
  refine ⟨fun f k hk hx => ?_, this.link, this.loop, this.nest⟩
  have e : b.frame s (max M N) = b.frame s M := by
    simp only [CSt.frame]; congr 1; omega
  rw [← e]; exact this.code f k hk hx

theorem ext_regs (st : CSt) (r : Nat) : Ext st (st.regs r) := by
  unfold CSt.regs; split
  · exact ⟨Nat.le_refl _, fun _ _ => rfl, by simp only; omega, List.prefix_refl _, List.prefix_refl _, Nat.le_refl _,
      List.prefix_refl _, .refl _, id⟩
  · exact .refl st
theorem regs_lt (st : CSt) (r : Nat) : r < (st.regs r).stack := by
  unfold CSt.regs; split
  · simp
  · omega
theorem regs_eqs (st : CSt) (r : Nat) : (st.regs r).code = st.code ∧ (st.regs r).len = st.len ∧ (st.regs r).upvals = st.upvals ∧
    (st.regs r).outer = st.outer ∧ (st.regs r).loop = st.loop ∧ (st.regs r).protos = st.protos ∧ (st.regs r).locals = st.locals ∧
    (st.regs r).values = st.values ∧ (st.regs r).over = st.over := by
  unfold CSt.regs; split <;> simp

/-- A step that changes no code, links, loops and functions. -/
theorem step_quiet {s N : Nat} {a b : CSt} (e : Ext a b) (hc : b.code = a.code) (hl : b.len = a.len) (hu : b.upvals = a.upvals)
    (ho : b.outer = a.outer) (hp : b.loop = a.loop) (hg : b.protos = a.protos) : Step s N a b := by
  refine ⟨e, fun M _ i => ⟨fun f k hk hx => ?_, by rw [hu, ho]; exact i.link, ?_, by rw [hg]; exact i.nest⟩⟩
  · exact (e.le (Nat.le_refl M)).ins (by simp only [CSt.frame, hc]) (i.code (e.fits f) k (hl ▸ hk) hx)
  · rw [hp, hl, hc]; exact i.loop

theorem step_regs (s N : Nat) (st : CSt) (r : Nat) : Step s N st (st.regs r) := by
  obtain ⟨h1, h2, h3, h4, h5, h6, _⟩ := regs_eqs st r
  exact step_quiet (ext_regs st r) h1 h2 h3 h4 h5 h6

theorem step_wide (s N : Nat) (st : CSt) (n : Nat) : Step s N st (st.wide n) :=
  step_quiet ⟨Nat.le_refl _, fun _ _ => rfl, Nat.le_refl _, List.prefix_refl _, List.prefix_refl _, Nat.le_refl _,
    List.prefix_refl _, .refl _, fun h => by simp only [CSt.wide, Bool.or_eq_false_iff] at h; exact h.1⟩ rfl rfl rfl rfl rfl rfl

theorem step_path (s N : Nat) (st : CSt) (n : Nat) : Step s N st (st.path n) :=
  step_quiet ⟨Nat.le_refl _, fun _ _ => rfl, Nat.le_refl _, List.prefix_refl _, List.prefix_refl _, Nat.le_refl _,
    List.prefix_refl _, .refl _, id⟩ rfl rfl rfl rfl rfl rfl

theorem put_prefix (l : List Tree) (v : Tree) : l <+: (put l v).1 := by
  unfold put; split
  · exact List.prefix_refl _
  · exact prefix_append _ _
theorem put_lt (l : List Tree) (v : Tree) : (put l v).2 < (put l v).1.length := by
  unfold put; split
  · rename_i h; exact find_lt h
  · simp

theorem step_const (s N : Nat) (st : CSt) (v : Tree) : Step s N st (st.const v).1 :=
  step_quiet ⟨Nat.le_refl _, fun _ _ => rfl, Nat.le_refl _, List.prefix_refl _, List.prefix_refl _, (put_prefix ..).length_le,
    List.prefix_refl _, .refl _, id⟩ rfl rfl rfl rfl rfl rfl
theorem const_lt (st : CSt) (v : Tree) : (st.const v).2 < (st.const v).1.values.length := put_lt ..
theorem step_locl (s N : Nat) (st : CSt) (v : Tree) : Step s N st (st.locl v).1 :=
  step_quiet ⟨Nat.le_refl _, fun _ _ => rfl, Nat.le_refl _, put_prefix .., List.prefix_refl _, Nat.le_refl _,
    List.prefix_refl _, .refl _, id⟩ rfl rfl rfl rfl rfl rfl
theorem locl_lt (st : CSt) (v : Tree) : (st.locl v).2 < (st.locl v).1.locals.length := put_lt ..

/-! ### Upvalues -/

theorem pushUp_ext {x : Tree} : ∀ {o o'}, pushUp x o = some o' → OuterExt o o'
  | [], _, h => by simp [pushUp] at h
  | (ls, us) :: r, o', h => by
    simp only [pushUp] at h
    split at h
    · injection h with h; subst h; exact .refl _
    · split at h
      · contradiction
      · rename_i r' hr
        injection h with h; subst h
        exact .cons (prefix_append _ _) (pushUp_ext hr)
theorem pushUp_self {x : Tree} : ∀ {o o'}, pushUp x o = some o' → same x x = true
  | [], _, h => by simp [pushUp] at h
  | (ls, us) :: r, o', h => by
    simp only [pushUp] at h
    split at h
    · rename_i i hi; exact has_self ⟨i, hi⟩
    · split at h
      · contradiction
      · rename_i r' hr
        exact pushUp_self hr
theorem pushUp_linked {x : Tree} : ∀ {o o' us}, pushUp x o = some o' → Linked us o → Linked (us ++ [x]) o'
  | [], _, _, h, _ => by simp [pushUp] at h
  | (ls, us') :: r, o', us, h, hl => by
    have hx := pushUp_self h
    simp only [pushUp] at h
    split at h
    · rename_i i hi
      injection h with h; subst h
      refine ⟨fun y hy => ?_, hl.2⟩
      rcases List.mem_append.1 hy with hy | hy
      · exact hl.1 y hy
      · rw [List.mem_singleton.1 hy]; exact .inl ⟨i, hi⟩
    · split at h
      · contradiction
      · rename_i r' hr
        injection h with h; subst h
        refine ⟨fun y hy => ?_, pushUp_linked hr hl.2⟩
        rcases List.mem_append.1 hy with hy | hy
        · rcases hl.1 y hy with h | h
          · exact .inl h
          · exact .inr (h.append _)
        · rw [List.mem_singleton.1 hy]; exact .inr (has_last hx us')

theorem step_upval (s N : Nat) (st : CSt) (x : Tree) : Step s N st (st.upval x).1 := by
  unfold CSt.upval
  split
  · exact .refl ..
  · split
    · exact .refl ..
    · split
      · exact .refl ..
      · rename_i out ho
        have e : Ext st { st with upvals := st.upvals ++ [x], outer := out } :=
          ⟨Nat.le_refl _, fun _ _ => rfl, Nat.le_refl _, List.prefix_refl _, prefix_append _ _, Nat.le_refl _,
            List.prefix_refl _, pushUp_ext ho, id⟩
        refine ⟨e, fun M _ i => ⟨fun f k hk hx => ?_, pushUp_linked ho i.link, i.loop, i.nest⟩⟩
        exact (e.le (Nat.le_refl M)).ins rfl (i.code (e.fits f) k hk hx)
theorem upval_lt (st : CSt) (x : Tree) {n : Nat} (h : (st.upval x).2 = some n) : n < (st.upval x).1.upvals.length := by
  revert h
  unfold CSt.upval
  split
  · simp
  · split
    · rename_i hu
      simp only [Option.some.injEq]; rintro rfl; exact find_lt hu
    · split
      · simp
      · simp only [Option.some.injEq]; rintro rfl; simp

/-- A variable has a place. -/
def Place (st : CSt) (up : Bool) (n : Nat) : Prop := if up then n < st.upvals.length else n < st.locals.length

theorem step_var (s N : Nat) (st : CSt) (x : Tree) : Step s N st (st.var x).1 := by
  unfold CSt.var
  have := step_upval s N st x
  split
  · rename_i st' n h; rw [h] at this; exact this
  · rename_i st' h; rw [h] at this; exact this.trans (step_locl ..)
theorem var_place (st : CSt) (x : Tree) : Place (st.var x).1 (st.var x).2.1 (st.var x).2.2 := by
  unfold CSt.var
  have := @upval_lt st x
  split
  · rename_i st' n h; rw [h] at this; exact this rfl
  · rename_i st' h; exact locl_lt ..

theorem step_look (s N : Nat) (st : CSt) (x : Tree) : Step s N st (st.look x).1 := by
  unfold CSt.look
  have := step_upval s N st x
  split
  · rename_i st' n h; rw [h] at this; exact this
  · rename_i st' h; rw [h] at this; exact this
theorem look_place (st : CSt) (x : Tree) {up n} (h : (st.look x).2 = some (up, n)) : Place (st.look x).1 up n := by
  unfold CSt.look at h ⊢
  have hu := @upval_lt st x
  split at h
  · rename_i st' m e
    rw [e] at hu
    simp only at h ⊢
    injection h with h; injection h with h1 h2; subst h1; subst h2
    exact hu rfl
  · rename_i st' e
    simp only at h ⊢
    obtain ⟨m, hm, h⟩ := Option.map_eq_some_iff.1 h
    injection h with h1 h2; subst h1; subst h2
    exact find_lt hm

end Potion.CompileAll
