import Verif.Proof.CompileRun
/-!
Whole programs: compile, start, run.
-/
namespace Potion.Compile
open Potion Potion.Vm Potion.Spec

mutual
theorem width_toSrc : ∀ p, width (toSrc p) = depth p
  | .int _ | .bool _ | .nil | .var _ | .incr .. | .nop | .brk | .cont | .retNil => by simp [toSrc, wrap, width, depth]
  | .assign _ e => by simp [toSrc, width, depth, width_toSrc e]
  | .arith _ a b | .rel _ a b | .eq _ a b | .and a b | .or a b | .seq a b => by
    simp [toSrc, width, depth, width_toSrc a, width_toSrc b]
  | .while a b => by simp [toSrc, wrap, width, depth, width_toSrc a, width_toSrc b]
  | .not a | .bitnot a | .group a | .loop a | .ret a => by simp [toSrc, wrap, width, depth, width_toSrc a]
  | .ifs c a r => by simp [toSrc, width, depth, width_toSrc c, width_toSrc a, width_toTail r]
  | .fn _ b => by simp [toSrc, wrap, width, depth, width_toSrc b]
  | .call _ as => by simp [toSrc, wrap, width, depth, width_toArgs as]
theorem width_toTail : ∀ r, width (toTail r) = depthTail r
  | .none => by simp [toTail, width, depthTail]
  | .els a => by simp [toTail, wrap, width, depthTail, width_toSrc a]
  | .elsif c a r => by simp [toTail, width, depthTail, width_toSrc c, width_toSrc a, width_toTail r]
theorem width_toArgs : ∀ r, width (toArgs r) = depthArgs r
  | .nil => by simp [toArgs, width, depthArgs]
  | .cons a r => by simp [toArgs, width, depthArgs, width_toSrc a, width_toArgs r]
end

theorem isExpr_guarded (own : Bool) : ∀ p, isExpr p = true → guarded own p = true
  | .int _, _ | .bool _, _ | .nil, _ | .var _, _ | .incr .., _ => by simp [guarded]
  | .assign _ e, h => by simp only [isExpr] at h; simp only [guarded]; exact isExpr_guarded own e h
  | .arith _ a b, h | .rel _ a b, h | .eq _ a b, h | .and a b, h | .or a b, h => by
    simp only [isExpr, Bool.and_eq_true] at h
    simp only [guarded, Bool.and_eq_true]
    exact ⟨isExpr_guarded own a h.1, isExpr_guarded own b h.2⟩
  | .not a, h | .bitnot a, h | .group a, h => by
    simp only [isExpr] at h; simp only [guarded]; exact isExpr_guarded own a h
  | .nop, h | .seq .., h | .ifs .., h | .while .., h | .loop _, h | .brk, h | .cont, h | .ret _, h | .retNil, h | .fn .., h | .call .., h => by
    simp [isExpr] at h

theorem keeps_mono (own : Bool) : ∀ p, keeps false p = true → keeps own p = true
  | .int _, _ | .bool _, _ | .nil, _ | .var _, _ | .incr .., _ | .arith .., _ | .rel .., _ | .nop, _ | .brk, _ | .cont, _ | .ret _, _ | .retNil, _
  | .fn .., _ => by simp [keeps]
  | .assign _ e, h => by simp only [keeps] at h ⊢; exact keeps_mono own e h
  | .eq _ _ b, h => by simpa [keeps] using h
  | .not a, h | .bitnot a, h | .group a, h => by simp only [keeps] at h ⊢; exact keeps_mono own a h
  | .and a b, h | .or a b, h | .seq a b, h => by
    simp only [keeps, Bool.and_eq_true] at h ⊢; exact ⟨keeps_mono own a h.1, keeps_mono own b h.2⟩
  | .call .., h => by simp [keeps] at h
  | .ifs .., h | .while .., h | .loop _, h => by simp [keeps] at h

mutual
theorem guarded_mono (own : Bool) : ∀ p, guarded false p = true → guarded own p = true
  | .int _, _ | .bool _, _ | .nil, _ | .var _, _ | .incr .., _ | .nop, _ | .brk, _ | .cont, _ | .retNil, _ => by simp [guarded]
  | .assign _ e, h => by simp only [guarded] at h ⊢; exact guarded_mono own e h
  | .arith _ a b, h | .rel _ a b, h | .eq _ a b, h | .and a b, h | .or a b, h | .seq a b, h | .while a b, h => by
    simp only [guarded, Bool.and_eq_true] at h ⊢; exact ⟨guarded_mono own a h.1, guarded_mono own b h.2⟩
  | .not a, h | .bitnot a, h | .group a, h | .loop a, h | .ret a, h | .fn _ a, h => by
    simp only [guarded] at h ⊢; exact guarded_mono own a h
  | .ifs c a r, h => by
    simp only [guarded, Bool.and_eq_true] at h ⊢
    exact ⟨⟨guarded_mono own c h.1.1, guarded_mono own a h.1.2⟩, guardedTail_mono own a r h.2⟩
  | .call _ as, h => by simp only [guarded] at h ⊢; exact guardedArgs_mono own as h
theorem guardedTail_mono (own : Bool) : ∀ p r, guardedTail false p r = true → guardedTail own p r = true
  | _, .none, _ => by simp [guardedTail]
  | p, .els a, h => by
    simp only [guardedTail, Bool.and_eq_true] at h ⊢; exact ⟨keeps_mono own p h.1, guarded_mono own a h.2⟩
  | p, .elsif c a r, h => by
    simp only [guardedTail, Bool.and_eq_true] at h ⊢
    exact ⟨⟨⟨keeps_mono own p h.1.1.1, guarded_mono own c h.1.1.2⟩, guarded_mono own a h.1.2⟩, guardedTail_mono own a r h.2⟩
theorem guardedArgs_mono (own : Bool) : ∀ as, guardedArgs false as = true → guardedArgs own as = true
  | .nil, _ => by simp [guardedArgs]
  | .cons a r, h => by
    simp only [guardedArgs, Bool.and_eq_true] at h ⊢; exact ⟨guarded_mono own a h.1, guardedArgs_mono own r h.2⟩
end

/-- The names of the locals of a compiled program, in order. -/
def localsOf (t : Src) : List Name := match comp t false 0 0 (CSt.open [] [] 1) with
  | none => []
  | some st => st.locals

theorem start_good {F : Frame} {d : Nat} (c : Ctx F d) (hp : F.T.f.params = []) (hU : F.T.U = []) (hsc : F.sc = []) (hcur : F.cur = 0)
    (self : Val) (heap : List Obj) (ho : F.A.own = true → vtest self = true) (stk : Nat → Val)
    (hstk : ∀ i, stk i = .imm PN_NIL ∨ (F.A.ok.unset = false ∧ ∃ p, stk i = .fn p)) :
    ∃ s0, State.enter { f := F.T.f, pos := 0, cur := 0, stack := stk, heap := heap, grow := fun _ => 0 } self [] [] = some s0 ∧
      s0.pos = 0 ∧ Good F ⟨fun _ => none, Store.empty, s0⟩ := by
  have h1 := c.room
  have h2 := c.loc
  have hu := c.up
  rw [hU] at hu h1
  simp only [List.length_nil, hcur] at hu h1
  generalize hf : F.T.f = f at *
  have e : ∀ s : State, s.f = f → s.cur = 0 → s.rbase = f.localsize + 1 := by
    intro s a b; unfold State.rbase; rw [a, b, hu]; omega
  let z : State := { f := f, pos := 0, cur := 0, stack := stk, heap := heap, grow := fun _ => 0 }
  have b0 := e z rfl rfl
  have w1 := wr_at z z.rbase f.localsize (-1) self (by omega) (by omega)
  let z1 : State := { z with stack := fun j => if j = f.localsize then self else z.stack j }
  have b1 := e z1 rfl rfl
  have w2 := wr_at z1 z1.rbase (f.localsize + 1) 0 self (by omega) (by omega)
  refine ⟨{ z with stack := fun j => if j = f.localsize + 1 then self else if j = f.localsize then self else z.stack j }, ?_, rfl, ?_⟩
  · show State.enter z self [] [] = _
    unfold State.enter
    rw [if_neg (by show ¬ (0 ≥ STACK_MAX); decide), w1]
    show (match z1.wr z1.rbase 0 self with | none => none | some s => _) = _
    rw [w2]
    simp only [State.putAll]
    show State.putParams _ _ (f.params.zip []) = _
    rw [hp]
    rfl
  · refine ⟨hf.symm, hcur.symm, fun i x hi => .inl ⟨rfl, ?_⟩, fun i x hi => by simp [hU] at hi, fun _ _ h => by simp at h, fun _ _ _ h => by simp at h,
      fun _ _ => rfl, fun x _ i h => by rw [hsc] at h; simp [place] at h, rfl, fun h => ?_⟩
    · have := (List.getElem?_eq_some_iff.1 hi).1
      rw [hsc]
      show Cfg.var _ _ _ (if la F i = f.localsize + 1 then self else if la F i = f.localsize then self else stk (la F i))
      have : la F i = i := by unfold la; rw [hU, hcur]; simp
      rw [this, if_neg (by omega), if_neg (by omega)]
      rcases hstk i with e | ⟨e1, e2⟩
      · rw [e]; exact .inl (VR.ofRV (v := .nil) rfl)
      · exact .inr ⟨e1, rfl, e2⟩
    · have : ra F 0 - 1 = f.localsize := by unfold ra; rw [hU, hcur]; simp; omega
      rw [this]
      show vtest (if f.localsize = f.localsize + 1 then self else if f.localsize = f.localsize then self else stk f.localsize) = true
      rw [if_neg (by omega), if_pos rfl, ho h]

/-- No function in `f` has locals besides its parameters. -/
def Plain (f : Proto) : Prop := ∀ g ∈ f.protos, ∀ h, Within h g → Flat h

theorem compile_shape {t : Src} {f : Proto} (h : compile t = some f) (hw : width t ≤ 255) (hs : Small f) :
    ∃ q, Head ⟨f, localsOf t, []⟩ [] q ∧ CodeAt ⟨f, localsOf t, []⟩ t none 0 0 q := by
  unfold compile compileFn at h
  cases hc : comp t false 0 0 (CSt.open [] [] (0 + 1)) with
  | none => rw [hc] at h; simp at h
  | some st =>
  rw [hc] at h
  obtain rfl := by simpa using h
  have hL : localsOf t = st.locals := by unfold localsOf; rw [hc]
  rw [hL]
  have j0 : JOk (CSt.open [] [] (0+1)) := ⟨by intro _ _ h; simp [CSt.open, CSt.new] at h, by simp [CSt.chain, CSt.open, CSt.new, Linked]⟩
  obtain ⟨g, code⟩ := comp_code t false 0 0 _ _ hc j0 (by omega)
  have hloop : st.loop = none := by
    rcases g.loop with ⟨_, e⟩ | ⟨_, _, _, _, e, _⟩
    · exact e
    · simp [CSt.open, CSt.new] at e
  have ho : st.outer = [] := by
    have := g.rest.outer
    simp only [CSt.open, CSt.new] at this
    simpa using this
  have hup : st.upvals = [] := by
    have := (g.jok j0).2
    unfold CSt.chain at this
    rw [ho] at this
    exact this
  have sm := hs _ (.self _)
  have gl : (st.close 0 []).len = st.len + 1 := rfl
  refine ⟨st.len, ⟨by show st.upvals.length = _; rw [hup], rfl, g.nodup (by simp [CSt.open, CSt.new]), by simp, rfl, rfl, by simp, rfl, asm_code st .ret 0 0⟩, ?_⟩
  refine code _ none ⟨fun k h1 h2 => ?_, List.prefix_refl _, List.prefix_refl _, by rw [hup]; exact List.prefix_refl _, List.prefix_refl _, Nat.le_refl _, hs,
    sm.2.2.2.1, by simp, by omega, by simp, by simp [hloop]⟩
  show (st.asm .ret 0 0).code k = _
  simp only [CSt.asm, fin, hloop]
  rw [if_neg (by omega)]

theorem Shows.of {A : Lim} {c : Cfg} {v : V} {r : Val} (h : c.has A v r) : Shows c.s v r := by
  cases v with
  | fn ps b sc =>
    obtain ⟨n, g, up, h1, h2, _⟩ := h
    exact ⟨n, g.f, up, h1, h2⟩
  | int i => exact h
  | bool i => exact h
  | nil => exact h

theorem Shows.congr {s s' : State} {v : V} {r : Val} (e : s'.heap = s.heap) (h : Shows s v r) : Shows s' v r := by
  cases v with
  | fn ps b sc =>
    obtain ⟨n, g, up, h1, h2⟩ := h
    exact ⟨n, g, up, h1, by rw [e]; exact h2⟩
  | int i => exact h
  | bool i => exact h
  | nil => exact h

/-- A run as evaluation says, up to the RETURN. -/
theorem run_to_ret (p : Prog) (f : Proto) (n d : Nat) (v : V) (env' : Store) (self : Val) (heap : List Obj) (ok : Claims) (own : Bool)
    (hc : compile (toSrc p) = some f) (hd : depth p ≤ 255) (hr : Roomy f d) (hpl : Plain f) (hg : guarded own p = true)
    (ho : own = true → vtest self = true) (hrel : ∀ i j, ok.rel i j = true → sameSign i j = true) (htidy : ok.unset = false → own = false)
    (stk : Nat → Val) (hstk : ∀ i, stk i = .imm PN_NIL ∨ (ok.unset = false ∧ ∃ p, stk i = .fn p))
    (he : eval ok n d [] p Store.empty = some (.val (some v), env') ∨ eval ok n d [] p Store.empty = some (.ret v, env')) :
    ∃ K q, let F : Frame := ⟨⟨K, own, ok⟩, ⟨f, localsOf (toSrc p), []⟩, [], 0⟩
      Ctx F d ∧ Head F.T [] q ∧ CodeAt F.T (toSrc p) none 0 0 q ∧ ∃ s0 c1 r,
      State.enter { f := f, pos := 0, cur := 0, stack := stk, heap := heap, grow := fun _ => 0 } self [] [] = some s0 ∧
      To F ⟨fun _ => none, Store.empty, s0⟩ c1 ∧ c1.env = env' ∧ c1.s.pos < f.len ∧ f.code c1.s.pos = ⟨.ret, (r : Nat), 0⟩ ∧
      r < 300 ∧ c1.has F.A v (c1.s.stack (ra F r)) := by
  obtain ⟨K, hK, hr⟩ := hr
  have hKK : K ≤ (d + 1) * K := Nat.le_mul_of_pos_left _ (by omega)
  have sm : Small f := fun g hg => by have := hr g hg; exact ⟨this.1, this.2.1, this.2.2.1, this.2.2.2.1, this.2.2.2.2.1⟩
  obtain ⟨q, hd', code⟩ := compile_shape hc (by rw [width_toSrc]; exact hd) sm
  let F : Frame := ⟨⟨K, own, ok⟩, ⟨f, localsOf (toSrc p), []⟩, [], 0⟩
  have x : Ctx F d := by
    refine ⟨hd'.up, hd'.loc, hd'.nd, fun x _ y _ h => ?_, (hr f (.self _)).2.2.2.2.2, ?_, (hr f (.self _)).1, fun g hg h hw => ?_, hrel, htidy⟩
    · simpa [F, place] using h
    · show 0 + (d + 1) * K + 300 ≤ 4096; omega
    · have := hr h (hw.trans' (.sub hg (.self _)))
      exact ⟨hpl g hg h hw, this.2.2.2.2.2, this.1⟩
  obtain ⟨s0, h0, p0, g0⟩ := start_good x hd'.params rfl rfl rfl self heap ho stk hstk
  refine ⟨K, q, x, hd', code, ?_⟩
  rcases he with he | he
  · obtain ⟨c1, a1, a0, a2, a3, a4, a5⟩ := (sim n).1 d F x p none 0 0 q env' _ ⟨fun _ => none, Store.empty, s0⟩ he code hg g0 p0 (by rw [width_toSrc]; omega)
      (by have : f.len = q + 1 := hd'.len; show q ≤ f.len; omega)
    exact ⟨s0, c1, 0, h0, a1, a0, by rw [a2]; have : f.len = q + 1 := hd'.len; omega, by rw [a2]; exact hd'.ret, by omega, a4 v rfl⟩
  · obtain ⟨c1, r, a1, a0, a2, a3, a4, a5⟩ := (sim n).1 d F x p none 0 0 q env' _ ⟨fun _ => none, Store.empty, s0⟩ he code hg g0 p0 (by rw [width_toSrc]; omega)
      (by have : f.len = q + 1 := hd'.len; show q ≤ f.len; omega)
    exact ⟨s0, c1, r, h0, a1, a0, a2, a3, a4, a5⟩

/-- What a program that ends with value `v` and variables `env'` promises. -/
theorem run_program (p : Prog) (f : Proto) (n d : Nat) (v : V) (env' : Store) (self : Val) (heap : List Obj)
    (hc : compile (toSrc p) = some f) (hd : depth p ≤ 255) (hr : Roomy f d) (hpl : Plain f) (hg : guarded (vtest self) p = true)
    (he : eval interpreter n d [] p Store.empty = some (.val (some v), env') ∨ eval interpreter n d [] p Store.empty = some (.ret v, env')) :
    ∃ s0 m s' r, start f self heap = some s0 ∧ State.steps m s0 = some (.done r s') ∧ Shows s' v r ∧
      ∀ (i : Nat) (x : Name), (localsOf (toSrc p))[i]? = some x → ∃ w, localVal s' i = some w ∧ Shows s' (env'.main x) w := by
  obtain ⟨K, q, x, _, _, s0, c1, r, h0, t1, e1, b1, b2, b3, b4⟩ := run_to_ret p f n d v env' self heap interpreter (vtest self) hc hd hr hpl hg id
    (fun _ _ h => h) (fun h => by cases h) (fun _ => .imm PN_NIL) (fun _ => .inl rfl) he
  generalize hF : (⟨⟨K, vtest self, interpreter⟩, ⟨f, localsOf (toSrc p), []⟩, [], 0⟩ : Frame) = F at *
  have e := raw_ret c1.s r 0 (c1.s.stack (ra F r)) _ (by subst hF; exact raw t1.good.f b1 b2) (by subst hF; exact t1.good.cur) (rd_reg x t1.good b3)
    (wr_at c1.s c1.s.rbase (ra F 0) 0 _ (by rw [t1.good.rbase x]; omega) (ra_lt x (by omega)))
  obtain ⟨m, hm⟩ := t1.star.done e
  refine ⟨s0, m, _, _, h0, hm, Shows.congr rfl (Shows.of b4), fun i y hi => ?_⟩
  have hl := (List.getElem?_eq_some_iff.1 hi).1
  have hra : (i : Nat) ≠ ra F 0 := by subst hF; show i ≠ 0 + 0 + (localsOf (toSrc p)).length + 1 + 0; omega
  have hla : la F i = i := by subst hF; show 0 + 0 + i = i; omega
  have key := t1.good.loc i y (by subst hF; exact hi)
  rw [hla] at key
  have hpl : place F.sc y = .main y := by subst hF; rfl
  rw [hpl] at key
  have hread : ∀ {w}, c1.var F.A (.main y) w → c1.has F.A (env'.main y) w := by
    intro w h
    rcases h with h | ⟨h, _⟩
    · rw [← e1]; exact h
    · subst hF; cases h
  unfold localVal
  simp only [if_neg hra]
  rcases key with ⟨a1, a2⟩ | ⟨k, a1, a2⟩
  · have : State.isRef c1.s (c1.s.stack i) = none := a2.isRef
    refine ⟨c1.s.stack i, ?_, Shows.congr rfl (Shows.of (hread a2))⟩
    exact (by rw [this] : (match State.isRef c1.s (c1.s.stack i) with | some n => c1.s.deref n | none => some (c1.s.stack i)) = some (c1.s.stack i))
  · obtain ⟨r', c1', c2'⟩ := t1.good.refs _ _ a1
    refine ⟨r', ?_, Shows.congr rfl (Shows.of (hread c2'))⟩
    rw [a2]
    have : State.isRef c1.s (.obj k) = some k := by simp [State.isRef, c1']
    exact (by rw [this]; simp [State.deref, c1'] : (match State.isRef c1.s (.obj k) with | some n => c1.s.deref n | none => some (.obj k)) = some r')

end Potion.Compile
