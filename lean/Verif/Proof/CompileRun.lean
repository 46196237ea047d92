import Verif.Proof.CompileCall
/-!
The simulation: compiled programs run as `Spec.eval` says.
-/
namespace Potion.Compile
open Potion Potion.Vm Potion.Spec

theorem posval_truthy {ok d sc} : ∀ n p env env' v, eval ok n d sc p env = some (.val (some v), env') → posval p = true → v.truthy = true := by
  intro n
  induction n with
  | zero => intro p env env' v h; simp [eval] at h
  | succ n ih =>
    intro p env env' v h hp
    have ov : ∀ {r : Option (Out × Store)} {k}, onVal r k = some (.val (some v), env') →
        ∃ x e, r = some (.val (some x), e) ∧ k x e = some (.val (some v), env') := by
      intro r k h
      rcases r with _ | ⟨o, e⟩
      · simp [onVal] at h
      · cases o with
        | val x => cases x with
          | none => simp [onVal] at h
          | some x => exact ⟨x, e, rfl, by simpa [onVal] using h⟩
        | brk => simp [onVal] at h
        | cont => simp [onVal] at h
        | ret x => simp [onVal] at h
    cases p <;> simp only [posval, Bool.and_eq_true, Bool.false_eq_true] at hp <;> simp only [eval] at h
    · split at h
      · simp at h; rw [← h.1]; rfl
      · simp at h
    · simp at h; rw [← h.1, hp]; rfl
    · obtain ⟨x, e, h1, h2⟩ := ov h
      simp at h2
      exact h2.1 ▸ ih _ _ _ _ h1 hp
    · split at h
      · split at h
        · simp at h; rw [← h.1]; rfl
        · simp at h
      · simp at h
    · obtain ⟨x, e, h1, h2⟩ := ov h
      obtain ⟨y, e', h3, h4⟩ := ov h2
      split at h4
      · split at h4
        · split at h4
          · simp at h4; rw [← h4.1]; rfl
          · simp at h4
        · simp at h4
      · simp at h4
    · obtain ⟨x, e, h1, h2⟩ := ov h
      split at h2
      · simp at h2; rw [← h2.1]; rfl
      · simp at h2
    · obtain ⟨x, e, h1, h2⟩ := ov h
      split at h2
      · exact ih _ _ _ _ h2 hp.2
      · rename_i hx
        exact absurd (ih _ _ _ _ h1 hp.1) hx
    · obtain ⟨x, e, h1, h2⟩ := ov h
      split at h2
      · rename_i hx
        simp at h2; rw [← h2.1]; exact hx
      · exact ih _ _ _ _ h2 hp
    · exact ih _ _ _ _ h hp
    · simp at h; rw [← h.1]; rfl

/-- What running the code of a program at register `reg`, ending at `q`, has to achieve from `c`. -/
def Sim (F : Frame) (lp : Option (Nat × Nat)) (reg q : Nat) (kp : Bool) (c : Cfg) (env' : Store) : Out → Prop
  | .val v => ∃ c', To F c c' ∧ c'.env = env' ∧ c'.s.pos = q ∧ (∀ r, r < reg → c'.s.stack (ra F r) = c.s.stack (ra F r)) ∧
      (∀ v0, v = some v0 → c'.has F.A v0 (c'.s.stack (ra F reg))) ∧
      (kp = true → Sure F.A (c.s.stack (ra F (reg+1))) → Sure F.A (c'.s.stack (ra F (reg+1))))
  | .brk => ∃ bt ct c', lp = some (bt, ct) ∧ To F c c' ∧ c'.env = env' ∧ c'.s.pos = bt ∧
      (∀ r, r < reg → c'.s.stack (ra F r) = c.s.stack (ra F r))
  | .cont => ∃ bt ct c', lp = some (bt, ct) ∧ To F c c' ∧ c'.env = env' ∧ c'.s.pos = ct ∧
      (∀ r, r < reg → c'.s.stack (ra F r) = c.s.stack (ra F r))
  | .ret v => ∃ c' r, To F c c' ∧ c'.env = env' ∧ c'.s.pos < F.T.f.len ∧ F.T.f.code c'.s.pos = ⟨.ret, (r : Nat), 0⟩ ∧ r < 300 ∧
      c'.has F.A v (c'.s.stack (ra F r))

/-- The same for argument lists. -/
def SimArgs (F : Frame) (reg q : Nat) (c : Cfg) (env' : Store) (vs : List V) : Prop :=
  ∃ c', To F c c' ∧ c'.env = env' ∧ c'.s.pos = q ∧ (∀ r, r < reg → c'.s.stack (ra F r) = c.s.stack (ra F r)) ∧
    ∀ (j : Nat) v, vs[j]? = some v → c'.has F.A v (c'.s.stack (ra F (reg + j)))

variable {F : Frame} {d : Nat} {lp : Option (Nat × Nat)} {env' : Store}

/-- Run some code first. -/
theorem Sim.pre {reg q kp} {c c1 : Cfg} {o : Out} (h : To F c c1) (hr : ∀ r, r < reg → c1.s.stack (ra F r) = c.s.stack (ra F r))
    (hk : kp = true → Sure F.A (c.s.stack (ra F (reg+1))) → Sure F.A (c1.s.stack (ra F (reg+1))))
    (h1 : Sim F lp reg q kp c1 env' o) : Sim F lp reg q kp c env' o := by
  cases o with
  | val v =>
    obtain ⟨s', a, b, c, d, e, g⟩ := h1
    exact ⟨s', h.trans a, b, c, fun r hh => (d r hh).trans (hr r hh), e, fun x y => g x (hk x y)⟩
  | brk =>
    obtain ⟨bt, ct, s', e, a, b, c, d⟩ := h1
    exact ⟨bt, ct, s', e, h.trans a, b, c, fun r hh => (d r hh).trans (hr r hh)⟩
  | cont =>
    obtain ⟨bt, ct, s', e, a, b, c, d⟩ := h1
    exact ⟨bt, ct, s', e, h.trans a, b, c, fun r hh => (d r hh).trans (hr r hh)⟩
  | ret v =>
    obtain ⟨s', r, a, b⟩ := h1
    exact ⟨s', r, h.trans a, b⟩

/-- A part that does not end normally decides the whole. -/
theorem Sim.exit {reg reg' q q' kp kp'} {c : Cfg} {o : Out} (hr : reg ≤ reg') (ho : ∀ v, o ≠ .val v)
    (h1 : Sim F lp reg' q' kp' c env' o) : Sim F lp reg q kp c env' o := by
  cases o with
  | val v => exact absurd rfl (ho v)
  | brk =>
    obtain ⟨bt, ct, s', e, a, b, c, d⟩ := h1
    exact ⟨bt, ct, s', e, a, b, c, fun r hh => d r (by omega)⟩
  | cont =>
    obtain ⟨bt, ct, s', e, a, b, c, d⟩ := h1
    exact ⟨bt, ct, s', e, a, b, c, fun r hh => d r (by omega)⟩
  | ret v => exact h1

theorem Sim.weak {reg q kp kp'} {c : Cfg} {o : Out} (hk : kp = true → kp' = true) (h : Sim F lp reg q kp' c env' o) :
    Sim F lp reg q kp c env' o := by
  cases o with
  | val v =>
    obtain ⟨s', a, b, c, d, e, g⟩ := h
    exact ⟨s', a, b, c, d, e, fun x => g (hk x)⟩
  | brk => exact h
  | cont => exact h
  | ret v => exact h

/-- Sequencing through `onVal`. -/
theorem Sim.onVal {reg reg' q q' kp kp'} {c : Cfg} {r : Option (Out × Store)} {k} {o : Out} (hr : reg ≤ reg')
    (h : Spec.onVal r k = some (o, env'))
    (ha : ∀ oa ea, r = some (oa, ea) → Sim F lp reg' q' kp' c ea oa)
    (hk : ∀ v c1, r = some (.val (some v), c1.env) → k v c1.env = some (o, env') → To F c c1 → c1.s.pos = q' →
      (∀ r, r < reg' → c1.s.stack (ra F r) = c.s.stack (ra F r)) → c1.has F.A v (c1.s.stack (ra F reg')) →
      (kp' = true → Sure F.A (c.s.stack (ra F (reg'+1))) → Sure F.A (c1.s.stack (ra F (reg'+1)))) →
      Sim F lp reg q kp c env' o) : Sim F lp reg q kp c env' o := by
  rcases r with _ | ⟨oa, ea⟩
  · simp [Spec.onVal] at h
  have sa := ha _ _ rfl
  cases oa with
  | val v =>
    cases v with
    | none => simp [Spec.onVal] at h
    | some v =>
      obtain ⟨c1, a, rfl, b, d, e, g⟩ := sa
      exact hk v c1 rfl h a b d (e v rfl) g
  | brk =>
    obtain ⟨rfl, rfl⟩ := by simpa [Spec.onVal] using h
    exact Sim.exit hr (by simp) sa
  | cont =>
    obtain ⟨rfl, rfl⟩ := by simpa [Spec.onVal] using h
    exact Sim.exit hr (by simp) sa
  | ret v =>
    obtain ⟨rfl, rfl⟩ := by simpa [Spec.onVal] using h
    exact Sim.exit hr (by simp) sa

/-- Sequencing through `onVal`, after some steps. -/
theorem Sim.onVal2 {reg reg' q q' kp kp'} {c0 c : Cfg} {r : Option (Out × Store)} {k} {o : Out} (hr : reg ≤ reg')
    (h0 : To F c0 c) (hr0 : ∀ r, r < reg → c.s.stack (ra F r) = c0.s.stack (ra F r))
    (h : Spec.onVal r k = some (o, env'))
    (ha : ∀ oa ea, r = some (oa, ea) → Sim F lp reg' q' kp' c ea oa)
    (hk : ∀ v c1, r = some (.val (some v), c1.env) → k v c1.env = some (o, env') → To F c c1 → c1.s.pos = q' →
      (∀ r, r < reg' → c1.s.stack (ra F r) = c.s.stack (ra F r)) → c1.has F.A v (c1.s.stack (ra F reg')) →
      Sim F lp reg q kp c0 env' o) : Sim F lp reg q kp c0 env' o := by
  rcases r with _ | ⟨oa, ea⟩
  · simp [Spec.onVal] at h
  have sa := ha _ _ rfl
  have ex : ∀ o', (∀ v, o' ≠ .val v) → Sim F lp reg' q' kp' c ea o' → Sim F lp reg q kp c0 ea o' := by
    intro o' ho h
    have h1 : Sim F lp reg q false c ea o' := Sim.exit hr ho h
    have h2 : Sim F lp reg q false c0 ea o' := Sim.pre h0 hr0 (by simp) h1
    exact Sim.exit (Nat.le_refl _) ho h2
  cases oa with
  | val v =>
    cases v with
    | none => simp [Spec.onVal] at h
    | some v =>
      obtain ⟨c1, a, rfl, b, d, e, g⟩ := sa
      exact hk v c1 rfl h a b d (e v rfl)
  | brk =>
    obtain ⟨rfl, rfl⟩ := by simpa [Spec.onVal] using h
    exact ex _ (by simp) sa
  | cont =>
    obtain ⟨rfl, rfl⟩ := by simpa [Spec.onVal] using h
    exact ex _ (by simp) sa
  | ret v =>
    obtain ⟨rfl, rfl⟩ := by simpa [Spec.onVal] using h
    exact ex _ (by simp) sa

/-- Ending with one instruction that writes register `reg`. -/
theorem Sim.last {reg q kp} {c : Cfg} {v : V} {r : Val} (g : Good F c) (hv : c.has F.A v r)
    (h : One F.A.ok c.s (c.reg F reg r q).s) : Sim F lp reg q kp c c.env (.val (some v)) := by
  refine ⟨_, To.reg g h, rfl, rfl, fun r hr => reg_ne c _ _ (by omega), fun v0 e => ?_, fun _ x => ?_⟩
  · obtain rfl := by simpa using e
    rw [reg_same]
    exact (Eff.reg F c _ _ _).has hv
  · rw [reg_ne c _ _ (by omega)]; exact x

theorem CodeAt.le {T : Tgt} : ∀ t lp r p q, CodeAt T t lp r p q → p ≤ q := by
  intro t
  induction t generalizing T with
  | skip => intro lp r p q h; simp only [CodeAt] at h; omega
  | seq a b iha ihb => rintro lp r p q ⟨m, h1, h2⟩; have := iha _ _ _ _ h1; have := ihb _ _ _ _ h2; omega
  | chain a b iha ihb => rintro lp r p q ⟨m, h1, h2⟩; have := iha _ _ _ _ h1; have := ihb _ _ _ _ h2; omega
  | value v => intro lp r p q h; have := h.1; omega
  | msg x => intro lp r p q h; have := h.1; omega
  | paren a ih => intro lp r p q h; exact ih _ _ _ _ h
  | assign x e ih => rintro lp r p q ⟨m, h1, _, h2⟩; have := ih _ _ _ _ h1; omega
  | inc x n =>
    intro lp r p q h
    obtain ⟨_, _, _, _, h⟩ := h
    split at h
    · have := h.2.2.2.2; omega
    · have := h.2.2.2; omega
  | bin op a b iha ihb => rintro lp r p q ⟨m, n, h1, h2, _, h3⟩; have := iha _ _ _ _ h1; have := ihb _ _ _ _ h2; omega
  | not a ih => rintro lp r p q ⟨m, h1, _, h2⟩; have := ih _ _ _ _ h1; omega
  | wavy a ih => rintro lp r p q ⟨m, h1, _, h2⟩; have := ih _ _ _ _ h1; omega
  | and a b iha ihb => rintro lp r p q ⟨m, h1, _, h2⟩; have := iha _ _ _ _ h1; have := ihb _ _ _ _ h2; omega
  | or a b iha ihb => rintro lp r p q ⟨m, h1, _, h2⟩; have := iha _ _ _ _ h1; have := ihb _ _ _ _ h2; omega
  | ifm a b iha ihb => rintro lp r p q ⟨m, h1, _, h2⟩; have := iha _ _ _ _ h1; have := ihb _ _ _ _ h2; omega
  | elsifm a b iha ihb => rintro lp r p q ⟨_, m, h1, _, h2⟩; have := iha _ _ _ _ h1; have := ihb _ _ _ _ h2; omega
  | elsem b ihb => rintro lp r p q ⟨_, h2⟩; have := ihb _ _ _ _ h2; omega
  | whilem a b iha ihb => rintro lp r p q ⟨m, e, h1, _, h2, _, h3⟩; have := iha _ _ _ _ h1; have := ihb _ _ _ _ h2; omega
  | loopm b ihb => rintro lp r p q ⟨e, h2, _, h3⟩; have := ihb _ _ _ _ h2; omega
  | retv a ih => rintro lp r p q ⟨m, h1, _, h2⟩; have := ih _ _ _ _ h1; omega
  | ret0 => rintro lp r p q ⟨_, _, h⟩; omega
  | brk => rintro lp r p q ⟨h, _⟩; omega
  | cont => rintro lp r p q ⟨h, _⟩; omega
  | self => rintro lp r p q ⟨h, _⟩; omega
  | fn ps b ih => rintro lp r p q ⟨_, _, _, _, _, _, _, h, _⟩; omega
  | call x as ih => rintro lp r p q ⟨_, _, _, m, h1, _, h2⟩; have := ih _ _ _ _ h1; omega
  | anil => intro lp r p q h; simp only [CodeAt] at h; omega
  | acons a b iha ihb => rintro lp r p q ⟨m, h1, h2⟩; have := iha _ _ _ _ h1; have := ihb _ _ _ _ h2; omega

theorem jmp_to {m q : Nat} : ((m : Int) + ((q : Int) - m - 1) + 1).toNat = q := by omega

/-- A conditional jump to `q` over the code from `m + 1`. -/
theorem notjmp_sim (x : Ctx F d) {c : Cfg} (g : Good F c) {m q r : Nat} {v : V} (hm : c.s.pos = m) (hp : m < F.T.f.len)
    (hr : r < 300) (h : F.T.f.code m = ⟨.notjmp, r, (q : Int) - m - 1⟩) (hv : c.has F.A v (c.s.stack (ra F r))) :
    To F c (c.go (if v.truthy then m + 1 else q)) := by
  subst hm
  have := step_notjmp x g hp hr h rfl fun _ => VR.known hv
  rw [VR.test hv, jmp_to] at this
  exact ⟨Star.one this, Eff.go _ _ _, g.go _⟩

theorem testjmp_sim (x : Ctx F d) {c : Cfg} (g : Good F c) {m q r : Nat} {b : Bool} (hm : c.s.pos = m) (hp : m < F.T.f.len)
    (hr : r < 300) (h : F.T.f.code m = ⟨.testjmp, r, (q : Int) - m - 1⟩) (hv : vtest (c.s.stack (ra F r)) = b)
    (hn : F.A.ok.unset = false → ∀ p, c.s.stack (ra F r) ≠ .fn p) :
    To F c (c.go (if b then q else m + 1)) := by
  subst hm
  have := step_testjmp x g hp hr h rfl hn
  rw [hv, jmp_to] at this
  exact ⟨Star.one this, Eff.go _ _ _, g.go _⟩

theorem jmp_sim {c : Cfg} (g : Good F c) {m q : Nat} (hm : c.s.pos = m) (hp : m < F.T.f.len) (h : F.T.f.code m = ⟨.jmp, (q : Int) - m - 1, 0⟩) :
    To F c (c.go q) := by
  subst hm
  have := step_jmp g hp h
  rw [jmp_to] at this
  exact ⟨Star.one this, Eff.go _ _ _, g.go _⟩

/-- Skipping what follows a taken branch. -/
theorem tail_skip (x : Ctx F d) : ∀ (r : Else) {c : Cfg} {reg p q : Nat}, Good F c →
    CodeAt F.T (toTail r) lp reg p q → c.s.pos = p → reg < 299 → q ≤ F.T.f.len →
    (r = .none ∨ Sure F.A (c.s.stack (ra F (reg+1)))) → To F c (c.go q)
  | .none, c, reg, p, q, g, hc, hp, _, _, _ => by
    simp only [toTail, CodeAt] at hc
    subst hc hp
    exact To.refl g
  | .els a, c, reg, p, q, g, hc, hp, hr, hq, ht => by
    simp only [toTail, wrap, CodeAt] at hc
    obtain ⟨m, ⟨h1, h2⟩, rfl⟩ := hc
    have hle := CodeAt.le _ _ _ _ _ h2
    have ht : Sure F.A (c.s.stack (ra F (reg+1))) := by simpa using ht
    have := testjmp_sim x g hp (by omega) (by omega) h1 ht.1 ht.2
    simpa using this
  | .elsif co a r, c, reg, p, q, g, hc, hp, hr, hq, ht => by
    simp only [toTail, CodeAt] at hc
    obtain ⟨m, ⟨h1, m', h2, _, h3⟩, h4⟩ := hc
    have l1 := CodeAt.le _ _ _ _ _ h2
    have l2 := CodeAt.le _ _ _ _ _ h3
    have l3 := CodeAt.le _ _ _ _ _ h4
    have ht : Sure F.A (c.s.stack (ra F (reg+1))) := by simpa using ht
    have s1 := testjmp_sim x g hp (by omega) (by omega) h1 ht.1 ht.2
    simp only [if_true] at s1
    have := tail_skip x r (g.go m) h4 rfl hr hq (.inr ht)
    exact s1.trans this

theorem args_count : ∀ (as : Args) {n d sc env vs env'} {ok : Claims}, evalArgs ok n d sc as env = some (vs, env') → argc (toArgs as) = vs.length
  | .nil, n, d, sc, env, vs, env', ok, h => by
    cases n with
    | zero => simp [evalArgs] at h
    | succ n =>
      simp only [evalArgs] at h
      obtain ⟨rfl, rfl⟩ := by simpa using h
      simp [toArgs, argc]
  | .cons a r, n, d, sc, env, vs, env', ok, h => by
    cases n with
    | zero => simp [evalArgs] at h
    | succ n =>
      simp only [evalArgs] at h
      split at h
      · split at h
        · rename_i ws e2 he
          obtain ⟨rfl, rfl⟩ := by simpa using h
          have := args_count r he
          simp [toArgs, argc, this]
        · simp at h
      · simp at h

/-- A register write followed by the rest. -/
theorem reg_next {c : Cfg} (g : Good F c) {i pos : Nat} {v : Val} (h : One F.A.ok c.s (c.reg F i v pos).s) :
    ∃ c1, To F c c1 ∧ c1.env = c.env ∧ c1.s.pos = pos ∧ c1.s.stack (ra F i) = v ∧ (∀ r, r ≠ i → c1.s.stack (ra F r) = c.s.stack (ra F r)) ∧
      ∀ A v r, c.has A v r → c1.has A v r :=
  ⟨_, To.reg g h, rfl, rfl, reg_same c _ _ _, fun _ hr => reg_ne c _ _ hr, fun _ _ _ h => (Eff.reg F c _ _ _).has h⟩

set_option maxHeartbeats 4000000 in
theorem sim : ∀ n, (∀ d F, Ctx F d → ∀ p lp reg pos q env' o (c : Cfg), eval F.A.ok n d F.sc p c.env = some (o, env') →
      CodeAt F.T (toSrc p) lp reg pos q → guarded F.A.own p = true → Good F c → c.s.pos = pos →
      reg + width (toSrc p) ≤ 255 → q ≤ F.T.f.len → Sim F lp reg q (keeps F.A.own p) c env' o) ∧
    (∀ d F, Ctx F d → ∀ as lp reg pos q env' vs (c : Cfg), evalArgs F.A.ok n d F.sc as c.env = some (vs, env') →
      CodeAt F.T (toArgs as) lp reg pos q → guardedArgs F.A.own as = true → Good F c → c.s.pos = pos →
      reg + width (toArgs as) ≤ 255 → q ≤ F.T.f.len → SimArgs F reg q c env' vs) := by
  intro n
  induction n with
  | zero =>
    refine ⟨?_, ?_⟩
    · intro d F x p lp reg pos q env' o c h; simp [eval] at h
    · intro d F x p lp reg pos q env' o c h; simp [evalArgs] at h
  | succ n ih0 =>
  obtain ⟨ih0, iha0⟩ := ih0
  refine ⟨?_, ?_⟩
  · intro d F x p lp reg pos q env' o c h hc hg g hp hw hq
    have ih := ih0 d F x
    have iha := iha0 d F x
    have lit : ∀ (v : V) (w : PN), RV v w → CodeAt F.T (wrap (.value w)) lp reg pos q →
        ∀ kp, Sim F lp reg q kp c c.env (.val (some v)) := by
      rintro v w rv ⟨m, ⟨rfl, hm⟩, rfl⟩ kp
      rcases hm with ⟨b, h1, h2⟩ | ⟨i, h1, h2⟩
      · have e := step_loadpn x g (by omega) (r := reg) (by omega) (by rw [hp]; exact h1)
        rw [h2, hp] at e
        exact Sim.last g (VR.ofRV rv) e
      · have e := step_loadk x g (by omega) (r := reg) (by omega) (by rw [hp]; exact h1) h2
        rw [hp] at e
        exact Sim.last g (VR.ofRV rv) e
    have two : ∀ (a b : Prog) (K : V → V → Store → Option (Out × Store)) (m m2 : Nat) (kp : Bool),
        onVal (eval F.A.ok n d F.sc a c.env) (fun x e1 => onVal (eval F.A.ok n d F.sc b e1) (fun y e2 => K x y e2)) = some (o, env') →
        CodeAt F.T (toSrc a) lp reg pos m → CodeAt F.T (toSrc b) lp (reg+1) m m2 →
        guarded F.A.own a = true → guarded F.A.own b = true → reg + width (toSrc a) ≤ 255 → reg + 1 + width (toSrc b) ≤ 255 → m2 < F.T.f.len →
        (∀ x y e1 c2, eval F.A.ok n d F.sc b e1 = some (.val (some y), c2.env) → K x y c2.env = some (o, env') → Good F c2 → c2.s.pos = m2 →
          c2.has F.A x (c2.s.stack (ra F reg)) → c2.has F.A y (c2.s.stack (ra F (reg+1))) →
          Sim F lp reg q kp c2 env' o ∧ (kp = true → y.truthy = true)) → Sim F lp reg q kp c env' o := by
      intro a b K m m2 kp h h1 h2 ga gb wa wb hm fin
      have l2 := CodeAt.le _ _ _ _ _ h2
      refine Sim.onVal (Nat.le_refl _) h (fun oa ea he => ih _ _ _ _ _ _ _ _ he h1 ga g hp wa (by omega)) ?_
      intro x c1 he hk st hs1 r1 hv kk
      refine Sim.onVal2 (Nat.le_succ _) st r1 hk (fun oa ea he => ih _ _ _ _ _ _ _ _ he h2 gb st.good hs1 wb (by omega)) ?_
      intro y c2 he2 hk2 st2 hs2 r2 hv2
      obtain ⟨f1, f2⟩ := fin x y c1.env c2 he2 hk2 st2.good hs2 (by rw [r2 reg (by omega)]; exact st2.eff.has hv) hv2
      refine Sim.pre (st.trans st2) (fun r hr => (r2 r (by omega)).trans (r1 r hr)) (fun k _ => ?_) f1
      exact VR.sure hv2 (f2 k)
    cases p with
    | int i =>
      simp only [eval] at h
      split at h
      · rename_i hi
        obtain ⟨rfl, rfl⟩ := by simpa using h
        exact lit (.int i) (pnNum i) (denotes_pnNum hi) hc _
      · simp at h
    | bool b =>
      simp only [eval] at h
      obtain ⟨rfl, rfl⟩ := by simpa using h
      exact lit (.bool b) (pnBool b) rfl hc _
    | nil =>
      simp only [eval] at h
      obtain ⟨rfl, rfl⟩ := by simpa using h
      exact lit .nil PN_NIL rfl hc _
    | var y =>
      simp only [eval] at h
      cases hx0 : c.env.read F.A.ok (place F.sc y) with
      | none => rw [hx0] at h; simp at h
      | some v0 =>
      rw [hx0] at h
      obtain ⟨rfl, rfl⟩ := by simpa using h
      obtain ⟨m, ⟨rfl, up, i, hx, h1⟩, rfl⟩ := hc
      obtain ⟨w, rv, e⟩ := step_get x g (by omega) (r := reg) (by omega) hx (by rw [hp]; exact h1)
      rw [hp] at e
      exact Sim.last g (rv.read hx0) e
    | assign y e =>
      simp only [eval] at h
      simp only [toSrc, width, guarded] at hw hg
      obtain ⟨m, h1, ⟨up, i, hx, h2⟩, rfl⟩ := hc
      refine Sim.onVal (Nat.le_refl _) h (fun oa ea he => ih _ _ _ _ _ _ _ _ he h1 hg g hp hw (by omega)) ?_
      intro v c1 he hk st hs1 r1 hv kk
      obtain ⟨rfl, rfl⟩ := by simpa using hk
      obtain ⟨c2, t2, v2, p2, r2⟩ := step_set x st.good (by omega) (r := reg) (by omega) hx (by rw [hs1]; exact h2) hv
      refine ⟨c2, st.trans t2, v2, by rw [p2, hs1], fun r hr => (r2 r).trans (r1 r hr), fun v0 e => ?_, fun a b => ?_⟩
      · obtain rfl := by simpa using e
        rw [r2]; exact t2.eff.has hv
      · rw [r2]; exact kk a b
    | incr pre up y =>
      simp only [eval] at h
      cases hx0 : c.env.read F.A.ok (place F.sc y) with
      | none => rw [hx0] at h; simp at h
      | some v0 =>
      cases v0 with
      | bool b => rw [hx0] at h; simp at h
      | nil => rw [hx0] at h; simp at h
      | fn ps b sc => rw [hx0] at h; simp at h
      | int i =>
      rw [hx0] at h
      simp only [] at h
      split at h
      · rename_i j hj
        obtain ⟨rfl, rfl⟩ := by simpa using h
        obtain ⟨m, ⟨ub, ii, hx, h1, hc⟩, rfl⟩ := hc
        simp only [toSrc, wrap, width] at hw
        have hk : isInt (if pre then pnNum (if up then 1 else -1) ^^^ 1#64 else pnNum (if up then 1 else -1)) = !pre := by
          cases pre <;> cases up <;> decide
        have hd : Denotes (BitVec.ofInt 64 (trunc12 ((if pre then pnNum (if up then 1 else -1) ^^^ 1#64 else pnNum (if up then 1 else -1)) ||| 1#64).toInt))
            (if up then 1 else -1) := by
          show BitVec.toInt _ = _
          cases pre <;> cases up <;> decide
        generalize (if pre then pnNum (if up then 1 else -1) ^^^ 1#64 else pnNum (if up then 1 else -1)) = nn at hk hd hc
        rw [hk] at hc
        generalize trunc12 (nn ||| 1#64).toInt = dd at hd hc
        cases pre with
        | false =>
          simp only [Bool.not_false, if_true] at hc
          obtain ⟨h2, h3, h4, h5, rfl⟩ := hc
          obtain ⟨w', rv, e1⟩ := step_get x g (r := reg) (by omega) (by omega) hx (by rw [hp]; exact h1)
          replace rv := rv.read hx0
          obtain ⟨w, rfl, rv⟩ : ∃ w, w' = .imm w ∧ RV (.int i) w := rv
          obtain ⟨c1, t1, n1, p1, v1, k1, _⟩ := reg_next g e1
          rw [hp] at p1
          have e2 := step_move x t1.good (r := reg + 1) (r' := reg) (by omega) (by omega) (by omega) (by rw [p1]; exact h2)
          rw [v1] at e2
          obtain ⟨c2, t2, n2, p2, v2, k2, _⟩ := reg_next t1.good e2
          rw [p1] at p2
          have e3 := step_loadpn x t2.good (r := reg + 2) (by omega) (by omega) (by rw [p2]; exact h3)
          generalize BitVec.ofInt 64 dd = w1 at e3 hd
          obtain ⟨c3, t3, n3, p3, v3, k3, _⟩ := reg_next t2.good e3
          rw [p2] at p3
          obtain ⟨w2, d2, e4⟩ := step_add x t3.good (by omega) (r := reg+1) (by omega) (by rw [p3]; exact h4)
            ((k3 _ (by omega)).trans v2) v3 rv hd hj
          obtain ⟨c4, t4, n4, p4, v4, k4, _⟩ := reg_next t3.good e4
          rw [p3] at p4
          have rv2 : RV (.int j) w2 := d2
          obtain ⟨c5, t5, n5, p5, k5⟩ := step_set x t4.good (by omega) (r := reg+1) (by omega) hx (by rw [p4]; exact h5)
            (v := .int j) (by rw [v4]; exact VR.ofRV rv2)
          refine ⟨c5, (((t1.trans t2).trans t3).trans t4).trans t5, by rw [n5, n4, n3, n2, n1], by rw [p5, p4], fun r hr => ?_,
            fun v0 e => ?_, fun _ _ => ?_⟩
          · rw [k5, k4 r (by omega), k3 r (by omega), k2 r (by omega), k1 r (by omega)]
          · obtain rfl := by simpa using e
            rw [k5, k4 _ (by omega), k3 _ (by omega), k2 _ (by omega), v1]
            exact VR.ofRV rv
          · rw [k5, v4]; exact ⟨by rw [vtest, rv2.test]; rfl, by simp⟩
        | true =>
          simp only [Bool.not_true, Bool.false_eq_true, if_false] at hc
          obtain ⟨h2, h4, h5, rfl⟩ := hc
          obtain ⟨w', rv, e1⟩ := step_get x g (r := reg) (by omega) (by omega) hx (by rw [hp]; exact h1)
          replace rv := rv.read hx0
          obtain ⟨w, rfl, rv⟩ : ∃ w, w' = .imm w ∧ RV (.int i) w := rv
          obtain ⟨c1, t1, n1, p1, v1, k1, _⟩ := reg_next g e1
          rw [hp] at p1
          have e2 := step_loadpn x t1.good (r := reg + 1) (by omega) (by omega) (by rw [p1]; exact h2)
          generalize BitVec.ofInt 64 dd = w1 at e2 hd
          obtain ⟨c2, t2, n2, p2, v2, k2, _⟩ := reg_next t1.good e2
          rw [p1] at p2
          obtain ⟨w2, d2, e4⟩ := step_add x t2.good (by omega) (r := reg) (by omega) (by rw [p2]; exact h4)
            ((k2 _ (by omega)).trans v1) v2 rv hd hj
          obtain ⟨c4, t4, n4, p4, v4, k4, _⟩ := reg_next t2.good e4
          rw [p2] at p4
          have rv2 : RV (.int j) w2 := d2
          have rv1 : RV (.int (if up then 1 else -1)) w1 := hd
          obtain ⟨c5, t5, n5, p5, k5⟩ := step_set x t4.good (by omega) (r := reg) (by omega) hx (by rw [p4]; exact h5)
            (v := .int j) (by rw [v4]; exact VR.ofRV rv2)
          refine ⟨c5, ((t1.trans t2).trans t4).trans t5, by rw [n5, n4, n2, n1], by rw [p5, p4], fun r hr => ?_, fun v0 e => ?_, fun _ _ => ?_⟩
          · rw [k5, k4 r (by omega), k2 r (by omega), k1 r (by omega)]
          · obtain rfl := by simpa using e
            rw [k5, v4]; exact VR.ofRV rv2
          · rw [k5, k4 _ (by omega), v2]; exact ⟨by rw [vtest, rv1.test]; rfl, by simp⟩
      · simp at h
    | arith op a b =>
      simp only [eval] at h
      simp only [toSrc, width, guarded, Bool.and_eq_true] at hw hg
      obtain ⟨m, m2, h1, h2, h3, rfl⟩ := hc
      refine two a b _ m m2 _ h h1 h2 hg.1 hg.2 (by omega) (by omega) (by omega) ?_
      intro u v e1 c2 he hk g2 hs2 hv hv2
      cases u with
      | int i =>
        cases v with
        | int j =>
          simp only [] at hk
          split at hk
          · rename_i r hr
            split at hk
            · rename_i hok
              obtain ⟨rfl, rfl⟩ := by simpa using hk
              obtain ⟨w, q1, rv⟩ := hv
              obtain ⟨w', q2, rv2⟩ := hv2
              obtain ⟨v, dd, e⟩ := step_arith x g2 (by omega) (r := reg) (by omega) (by rw [hs2]; exact h3) q1 q2 rv rv2 hr (fun _ => hok)
              rw [hs2] at e
              exact ⟨Sim.last g2 (v := .int r) (VR.ofRV dd) e, fun _ => rfl⟩
            · simp at hk
          · simp at hk
        | bool _ => simp at hk
        | nil => simp at hk
        | fn _ _ _ => simp at hk
      | bool _ => simp at hk
      | nil => simp at hk
      | fn _ _ _ => simp at hk
    | rel r a b =>
      simp only [eval] at h
      simp only [toSrc, width, guarded, Bool.and_eq_true] at hw hg
      obtain ⟨m, m2, h1, h2, h3, rfl⟩ := hc
      refine two a b _ m m2 _ h h1 h2 hg.1 hg.2 (by omega) (by omega) (by omega) ?_
      intro u v e1 c2 he hk g2 hs2 hv hv2
      cases u with
      | int i =>
        cases v with
        | int j =>
          simp only [] at hk
          split at hk
          · rename_i hs
            obtain ⟨rfl, rfl⟩ := by simpa using hk
            obtain ⟨w, q1, rv⟩ := hv
            obtain ⟨w', q2, rv2⟩ := hv2
            have e := step_rel x g2 (by omega) (r := reg) (by omega) (by rw [hs2]; exact h3) q1 q2 rv rv2 (x.rel _ _ hs)
            rw [hs2] at e
            exact ⟨Sim.last g2 (v := .bool _) (VR.ofRV rfl) e, fun _ => rfl⟩
          · simp at hk
        | bool _ => simp at hk
        | nil => simp at hk
        | fn _ _ _ => simp at hk
      | bool _ => simp at hk
      | nil => simp at hk
      | fn _ _ _ => simp at hk
    | eq neg a b =>
      simp only [eval] at h
      simp only [toSrc, width, guarded, Bool.and_eq_true] at hw hg
      obtain ⟨m, m2, h1, h2, h3, rfl⟩ := hc
      refine two a b _ m m2 _ h h1 h2 hg.1 hg.2 (by omega) (by omega) (by omega) ?_
      intro u v e1 c2 he hk g2 hs2 hv hv2
      split at hk
      · rename_i eq heq
        obtain ⟨rfl, rfl⟩ := by simpa using hk
        obtain ⟨w, q1, rv⟩ := VR.toRV hv (by rintro ps b sc rfl; simp [V.same] at heq)
        obtain ⟨w', q2, rv2⟩ := VR.toRV hv2 (by rintro ps b sc rfl; cases u <;> simp [V.same] at heq)
        have e := step_eq x g2 (by omega) (r := reg) (by omega) (by rw [hs2]; exact h3) q1 q2 rv rv2 heq
        rw [hs2] at e
        exact ⟨Sim.last g2 (v := .bool _) (VR.ofRV rfl) e, fun k => posval_truthy _ _ _ _ _ he k⟩
      · simp at hk
    | not a =>
      simp only [eval] at h
      simp only [toSrc, wrap, width, guarded] at hw hg
      obtain ⟨m, ⟨m', h1, h2, rfl⟩, rfl⟩ := hc
      refine Sim.onVal (Nat.le_refl _) h (fun oa ea he => ih _ _ _ _ _ _ _ _ he h1 hg g hp (by omega) (by omega)) ?_
      intro v c1 he hk st hs1 r1 hv kk
      obtain ⟨rfl, rfl⟩ := by simpa using hk
      have e := step_not x st.good (by omega) (r := reg) (by omega) (by rw [hs1]; exact h2) rfl fun _ => VR.known hv
      rw [hs1, VR.test hv] at e
      exact Sim.pre st r1 kk (Sim.last st.good (v := .bool (!v.truthy)) (VR.ofRV rfl) e)
    | bitnot a =>
      simp only [eval] at h
      simp only [toSrc, wrap, width, guarded] at hw hg
      obtain ⟨m, ⟨m', h1, h2, rfl⟩, rfl⟩ := hc
      refine Sim.onVal (Nat.le_refl _) h (fun oa ea he => ih _ _ _ _ _ _ _ _ he h1 hg g hp (by omega) (by omega)) ?_
      intro v c1 he hk st hs1 r1 hv kk
      cases v with
      | int i =>
        obtain ⟨rfl, rfl⟩ := by simpa using hk
        obtain ⟨w, q1, rv⟩ := hv
        have hd : Denotes w i := rv
        have e := step_bitn x st.good (by omega) (r := reg) (by omega) (by rw [hs1]; exact h2) q1 (isInt_odd hd)
        rw [hs1] at e
        refine Sim.pre st r1 kk (Sim.last st.good (v := .int (-i - 1)) (VR.ofRV ?_) e)
        have e1 := ((denotes_iff w i).1 hd).2
        unfold numBitn
        rw [e1]
        have hi := hd.inRange
        refine denotes_pnNum ?_
        simp only [InRange] at hi ⊢; omega
      | bool b => simp at hk
      | nil => simp at hk
      | fn _ _ _ => simp at hk
    | and a b =>
      simp only [eval] at h
      simp only [toSrc, width, guarded, Bool.and_eq_true] at hw hg
      obtain ⟨m, h1, h2, h3⟩ := hc
      have l3 := CodeAt.le _ _ _ _ _ h3
      refine Sim.onVal (Nat.le_refl _) h (fun oa ea he => ih _ _ _ _ _ _ _ _ he h1 hg.1 g hp (by omega) (by omega)) ?_
      intro v c1 he hk st hs1 r1 hv kk
      have s2 := notjmp_sim x st.good hs1 (by omega) (r := reg) (by omega) h2 hv
      refine Sim.pre (st.trans s2) r1 (fun k x => kk (by simp [keeps] at k; exact k.1) x) ?_
      split at hk
      · rename_i ht
        rw [if_pos ht] at s2 ⊢
        have := ih _ _ _ _ _ _ _ (c1.go (m+1)) hk h3 hg.2 s2.good rfl (by omega) hq
        exact Sim.weak (fun k => by simp [keeps] at k; exact k.2) this
      · rename_i ht
        rw [if_neg ht] at s2 ⊢
        obtain ⟨rfl, rfl⟩ := by simpa using hk
        exact ⟨_, To.refl s2.good, rfl, rfl, fun _ _ => rfl, fun v0 e => Option.some.inj e ▸ hv, fun _ x => x⟩
    | or a b =>
      simp only [eval] at h
      simp only [toSrc, width, guarded, Bool.and_eq_true] at hw hg
      obtain ⟨m, h1, h2, h3⟩ := hc
      have l3 := CodeAt.le _ _ _ _ _ h3
      refine Sim.onVal (Nat.le_refl _) h (fun oa ea he => ih _ _ _ _ _ _ _ _ he h1 hg.1 g hp (by omega) (by omega)) ?_
      intro v c1 he hk st hs1 r1 hv kk
      have s2 := testjmp_sim x st.good hs1 (by omega) (r := reg) (by omega) h2 (b := v.truthy) (VR.test hv) fun _ => VR.known hv
      refine Sim.pre (st.trans s2) r1 (fun k x => kk (by simp [keeps] at k; exact k.1) x) ?_
      split at hk
      · rename_i ht
        rw [if_pos ht] at s2 ⊢
        obtain ⟨rfl, rfl⟩ := by simpa using hk
        exact ⟨_, To.refl s2.good, rfl, rfl, fun _ _ => rfl, fun v0 e => Option.some.inj e ▸ hv, fun _ x => x⟩
      · rename_i ht
        rw [if_neg ht] at s2 ⊢
        have := ih _ _ _ _ _ _ _ (c1.go (m+1)) hk h3 hg.2 s2.good rfl (by omega) hq
        exact Sim.weak (fun k => by simp [keeps] at k; exact k.2) this
    | group a =>
      simp only [eval] at h
      simp only [toSrc, width, guarded] at hw hg
      exact ih a _ _ _ _ _ _ _ h hc hg g hp hw hq
    | nop =>
      simp only [eval] at h
      obtain ⟨rfl, rfl⟩ := by simpa using h
      simp only [toSrc, CodeAt] at hc
      subst hc hp
      exact ⟨c, To.refl g, rfl, rfl, fun _ _ => rfl, by simp, fun _ x => x⟩
    | seq a b =>
      simp only [eval] at h
      simp only [toSrc, width, guarded, Bool.and_eq_true] at hw hg
      obtain ⟨m, h1, h3⟩ := hc
      have l3 := CodeAt.le _ _ _ _ _ h3
      rcases hr : eval F.A.ok n d F.sc a c.env with _ | ⟨oa, ea⟩
      · rw [hr] at h; simp at h
      have sa := ih _ _ _ _ _ _ _ _ hr h1 hg.1 g hp (by omega) (by omega)
      rw [hr] at h
      cases oa with
      | val v =>
        simp only [] at h
        obtain ⟨c1, a1, rfl, a2, a4, a5, a6⟩ := sa
        have := ih _ _ _ _ _ _ _ _ h h3 hg.2 a1.good a2 (by omega) hq
        refine Sim.pre a1 a4 (fun k x => a6 (by simp [keeps] at k; exact k.1) x) ?_
        exact Sim.weak (fun k => by simp [keeps] at k; exact k.2) this
      | brk =>
        obtain ⟨rfl, rfl⟩ := by simpa using h
        exact Sim.exit (Nat.le_refl _) (by simp) sa
      | cont =>
        obtain ⟨rfl, rfl⟩ := by simpa using h
        exact Sim.exit (Nat.le_refl _) (by simp) sa
      | ret v =>
        obtain ⟨rfl, rfl⟩ := by simpa using h
        exact Sim.exit (Nat.le_refl _) (by simp) sa
    | ifs co a r =>
      simp only [eval] at h
      simp only [toSrc, width, guarded, Bool.and_eq_true] at hw hg
      obtain ⟨m1, ⟨m, h1, h2, h3⟩, h4⟩ := hc
      have l3 := CodeAt.le _ _ _ _ _ h3
      have l4 := CodeAt.le _ _ _ _ _ h4
      refine Sim.onVal (Nat.le_succ _) h (fun oa ea he => ih _ _ _ _ _ _ _ _ he h1 hg.1.1 g hp (by omega) (by omega)) ?_
      intro v c1 he hk st hs1 r1 hv kk
      have s2 := notjmp_sim x st.good hs1 (by omega) (r := reg + 1) (by omega) h2 hv
      refine Sim.pre (st.trans s2) (fun r hr => r1 r (by omega)) (fun k => by simp [keeps] at k) ?_
      split at hk
      · rename_i ht
        rw [if_pos ht] at s2 ⊢
        have sa := ih _ _ _ _ _ _ _ (c1.go (m+1)) hk h3 hg.1.2 s2.good rfl (by omega) (by omega)
        have hvt : Sure F.A (c1.s.stack (ra F (reg+1))) := VR.sure hv ht
        cases o with
        | val v =>
          obtain ⟨c3, a1, a0, a2, a4, a5, a6⟩ := sa
          have := tail_skip x r a1.good h4 a2 (by omega) hq (by
            cases r with
            | none => exact .inl rfl
            | els b => exact .inr (a6 (by simp only [guardedTail, Bool.and_eq_true] at hg; exact hg.2.1) hvt)
            | elsif x y z => exact .inr (a6 (by simp only [guardedTail, Bool.and_eq_true] at hg; exact hg.2.1.1.1) hvt))
          exact ⟨_, a1.trans this, a0, rfl, a4, a5, fun k => by simp [keeps] at k⟩
        | brk => exact Sim.exit (Nat.le_refl _) (by simp) sa
        | cont => exact Sim.exit (Nat.le_refl _) (by simp) sa
        | ret v => exact Sim.exit (Nat.le_refl _) (by simp) sa
      · rename_i ht
        rw [if_neg ht] at s2 ⊢
        have hvt : vtest (c1.s.stack (ra F (reg+1))) = false := by rw [VR.test hv]; simpa using ht
        have g2 := st.good.go m1
        cases r with
        | none =>
          simp only [toTail, CodeAt] at h4
          subst h4
          obtain ⟨rfl, rfl⟩ := by simpa using hk
          exact ⟨_, To.refl g2, rfl, rfl, fun _ _ => rfl, by simp, fun k => by simp [keeps] at k⟩
        | els b =>
          simp only [] at hk
          simp only [toTail, wrap, width, guardedTail, Bool.and_eq_true] at hw hg
          obtain ⟨m2, ⟨h5, h6⟩, rfl⟩ := h4
          have l6 := CodeAt.le _ _ _ _ _ h6
          have s3 := testjmp_sim x g2 (m := m1) rfl (by omega) (r := reg + 1) (by omega) h5 hvt fun _ => VR.known hv
          simp only [Bool.false_eq_true, if_false] at s3
          have sb := ih _ _ _ _ _ _ _ ((c1.go m1).go (m1+1)) hk h6 hg.2.2 s3.good rfl (by omega) hq
          exact Sim.pre s3 (fun _ _ => rfl) (fun k => by simp [keeps] at k) (Sim.weak (fun k => by simp [keeps] at k) sb)
        | elsif c' a' r' =>
          simp only [] at hk
          simp only [toTail, width, guardedTail, Bool.and_eq_true] at hw hg
          obtain ⟨m2, ⟨h5, m3, h6, h7, h8⟩, h9⟩ := h4
          have l6 := CodeAt.le _ _ _ _ _ h6
          have l8 := CodeAt.le _ _ _ _ _ h8
          have l9 := CodeAt.le _ _ _ _ _ h9
          have s3 := testjmp_sim x g2 (m := m1) rfl (by omega) (r := reg + 1) (by omega) h5 hvt fun _ => VR.known hv
          simp only [Bool.false_eq_true, if_false] at s3
          have sb := ih (.ifs c' a' r') lp reg (m1+1) q _ _ ((c1.go m1).go (m1+1)) hk (by simp only [toSrc]; exact ⟨m2, ⟨m3, h6, h7, h8⟩, h9⟩)
            (by simp only [guarded, Bool.and_eq_true]; exact ⟨⟨hg.2.1.1.2, hg.2.1.2⟩, hg.2.2⟩) s3.good rfl
            (by simp only [toSrc, width]; omega) hq
          exact Sim.pre s3 (fun _ _ => rfl) (fun k => by simp [keeps] at k) (Sim.weak (fun k => by simp [keeps] at k) sb)
    | «while» co a =>
      have hc0 := hc
      have hg0 := hg
      have hw0 := hw
      simp only [eval] at h
      simp only [toSrc, wrap, width, guarded, Bool.and_eq_true] at hw hg
      obtain ⟨m1, ⟨m, e, h1, h2, h3, h4, rfl⟩, rfl⟩ := hc
      have l3 := CodeAt.le _ _ _ _ _ h3
      refine Sim.onVal (Nat.le_succ _) h (fun oa ea he => ih _ _ _ _ _ _ _ _ he h1 hg.1 g hp (by omega) (by omega)) ?_
      intro v c1 he hk st hs1 r1 hv kk
      have s2 := notjmp_sim x st.good hs1 (by omega) (r := reg + 1) (by omega) h2 hv
      refine Sim.pre (st.trans s2) (fun r hr => r1 r (by omega)) (fun k => by simp [keeps] at k) ?_
      split at hk
      · rename_i ht
        rw [if_pos ht] at s2 ⊢
        rcases hr : eval F.A.ok n d F.sc a c1.env with _ | ⟨oa, eb⟩
        · rw [hr] at hk; simp at hk
        have sa := ih _ _ _ _ _ _ _ (c1.go (m+1)) hr h3 hg.2 s2.good rfl (by omega) (by omega)
        rw [hr] at hk
        cases oa with
        | val v =>
          simp only [] at hk
          obtain ⟨c3, a1, rfl, a2, a4, a5, a6⟩ := sa
          have e3 := jmp_sim a1.good a2 (by omega) h4
          have := ih _ _ _ _ _ _ _ (c3.go pos) hk hc0 hg0 e3.good rfl hw0 hq
          exact Sim.pre (a1.trans e3) a4 (fun k => by simp [keeps] at k) this
        | brk =>
          obtain ⟨rfl, rfl⟩ := by simpa using hk
          obtain ⟨bt, ct, c3, a0, a1, a3, a2, a4⟩ := sa
          obtain ⟨rfl, rfl⟩ := by simpa using a0
          exact ⟨_, a1, a3, a2, a4, by simp, fun k => by simp [keeps] at k⟩
        | cont =>
          simp only [] at hk
          obtain ⟨bt, ct, c3, a0, a1, rfl, a2, a4⟩ := sa
          obtain ⟨rfl, rfl⟩ := by simpa using a0
          have := ih _ _ _ _ _ _ _ _ hk hc0 hg0 a1.good a2 hw0 hq
          exact Sim.pre a1 a4 (fun k => by simp [keeps] at k) this
        | ret v =>
          obtain ⟨rfl, rfl⟩ := by simpa using hk
          exact sa
      · rename_i ht
        rw [if_neg ht] at s2 ⊢
        obtain ⟨rfl, rfl⟩ := by simpa using hk
        exact ⟨_, To.refl s2.good, rfl, rfl, fun _ _ => rfl, by simp, fun k => by simp [keeps] at k⟩
    | loop a =>
      have hc0 := hc
      have hg0 := hg
      have hw0 := hw
      simp only [eval] at h
      simp only [toSrc, wrap, width, guarded] at hw hg
      obtain ⟨m1, ⟨e, h3, h4, rfl⟩, rfl⟩ := hc
      have l3 := CodeAt.le _ _ _ _ _ h3
      rcases hr : eval F.A.ok n d F.sc a c.env with _ | ⟨oa, eb⟩
      · rw [hr] at h; simp at h
      have sa := ih _ _ _ _ _ _ _ _ hr h3 hg g hp (by omega) (by omega)
      rw [hr] at h
      cases oa with
      | val v =>
        simp only [] at h
        obtain ⟨c3, a1, rfl, a2, a4, a5, a6⟩ := sa
        have e3 := jmp_sim a1.good a2 (by omega) h4
        have := ih _ _ _ _ _ _ _ (c3.go pos) h hc0 hg0 e3.good rfl hw0 hq
        exact Sim.pre (a1.trans e3) a4 (fun k => by simp [keeps] at k) this
      | brk =>
        obtain ⟨rfl, rfl⟩ := by simpa using h
        obtain ⟨bt, ct, c3, a0, a1, a3, a2, a4⟩ := sa
        obtain ⟨rfl, rfl⟩ := by simpa using a0
        exact ⟨_, a1, a3, a2, a4, by simp, fun k => by simp [keeps] at k⟩
      | cont =>
        simp only [] at h
        obtain ⟨bt, ct, c3, a0, a1, rfl, a2, a4⟩ := sa
        obtain ⟨rfl, rfl⟩ := by simpa using a0
        have := ih _ _ _ _ _ _ _ _ h hc0 hg0 a1.good a2 hw0 hq
        exact Sim.pre a1 a4 (fun k => by simp [keeps] at k) this
      | ret v =>
        obtain ⟨rfl, rfl⟩ := by simpa using h
        exact sa
    | brk =>
      simp only [eval] at h
      obtain ⟨rfl, rfl⟩ := by simpa using h
      obtain ⟨m, ⟨rfl, bt, ct, rfl, h1⟩, rfl⟩ := hc
      have e := jmp_sim g hp (by omega) h1
      exact ⟨bt, ct, _, rfl, e, rfl, rfl, fun _ _ => rfl⟩
    | cont =>
      simp only [eval] at h
      obtain ⟨rfl, rfl⟩ := by simpa using h
      obtain ⟨m, ⟨rfl, bt, ct, rfl, h1⟩, rfl⟩ := hc
      have e := jmp_sim g hp (by omega) h1
      exact ⟨bt, ct, _, rfl, e, rfl, rfl, fun _ _ => rfl⟩
    | ret a =>
      simp only [eval] at h
      simp only [toSrc, wrap, width, guarded] at hw hg
      obtain ⟨m, ⟨m', h1, h2, rfl⟩, rfl⟩ := hc
      refine Sim.onVal (Nat.le_refl _) h (fun oa ea he => ih _ _ _ _ _ _ _ _ he h1 hg g hp (by omega) (by omega)) ?_
      intro v c1 he hk st hs1 r1 hv kk
      obtain ⟨rfl, rfl⟩ := by simpa using hk
      exact ⟨c1, reg, st, rfl, by omega, by rw [hs1]; exact h2, by omega, hv⟩
    | retNil =>
      simp only [eval] at h
      obtain ⟨rfl, rfl⟩ := by simpa using h
      obtain ⟨m, ⟨h1, h2, rfl⟩, rfl⟩ := hc
      simp only [toSrc, wrap, width] at hw
      have e := step_loadpn x g (by omega) (r := reg) (by omega) (by rw [hp]; exact h1)
      obtain ⟨c1, t1, n1, p1, v1, k1, _⟩ := reg_next g e
      rw [hp] at p1
      refine ⟨c1, reg, t1, n1, by omega, by rw [p1]; exact h2, by omega, ?_⟩
      rw [v1]
      exact VR.ofRV (v := .nil) (show BitVec.ofInt 64 0 = PN_NIL by decide)
    | fn ps b =>
      simp only [eval] at h
      obtain ⟨rfl, rfl⟩ := by simpa using h
      simp only [toSrc, wrap, width, guarded] at hw hg
      obtain ⟨m, ⟨i, T, e, h1, h2, hd, hb, rfl, hcap⟩, rfl⟩ := hc
      have ok : FnOk F.A T ps b := ⟨⟨e, hd, hb⟩, hg, by omega, fun h' hw' => x.nest T.f (List.mem_of_getElem? h2) h' hw'⟩
      obtain ⟨c1, t1, n1, p1, k1, v1⟩ := step_proto x g (by omega) (r := reg) (by omega) (by rw [hp]; exact h1) h2 hd.up (by rw [hp]; exact hcap) ok
      refine ⟨c1, t1, n1, by rw [p1, hp], fun r hr => k1 r (by omega), fun v0 e => ?_, fun _ y => ?_⟩
      · obtain rfl := by simpa using e
        exact v1
      · rw [k1 _ (by omega)]; exact y
    | call y as =>
      simp only [eval] at h
      simp only [toSrc, wrap, width, guarded] at hw hg
      obtain ⟨m0, ⟨⟨up, i, hx, h1⟩, h2, hst, m, h3, h4, rfl⟩, rfl⟩ := hc
      have l3 := CodeAt.le _ _ _ _ _ h3
      cases hf : c.env.read F.A.ok (place F.sc y) with
      | none => rw [hf] at h; simp at h
      | some v0 =>
      cases v0 with
      | int _ => rw [hf] at h; simp at h
      | bool _ => rw [hf] at h; simp at h
      | nil => rw [hf] at h; simp at h
      | fn ps b sc' =>
      rw [hf] at h
      rcases ha : evalArgs F.A.ok n d F.sc as c.env with _ | ⟨vs, ea⟩
      · rw [ha] at h; simp at h
      rw [ha] at h
      simp only [] at h
      split at h
      · rename_i hlen
        have hac := args_count as ha
        have hal := argc_le (toArgs as)
        obtain ⟨w, rv, e1⟩ := step_get x g (r := reg) (by omega) (by omega) hx (by rw [hp]; exact h1)
        replace rv := rv.read hf
        obtain ⟨c1, t1, n1, p1, v1, k1, q1⟩ := reg_next g e1
        rw [hp] at p1
        have e2 := step_self x t1.good (r := reg + 1) (by omega) (by omega) (by rw [p1]; exact h2)
        obtain ⟨c2, t2, n2, p2, v2, k2, q2⟩ := reg_next t1.good e2
        rw [p1] at p2
        have env2 : c2.env = c.env := n2.trans n1
        obtain ⟨c3, t3, rfl, p3, k3, v3⟩ := iha as lp (reg+2) (pos+2) m ea vs c2 (by rw [env2]; exact ha) h3 hg t2.good p2 (by omega) (by omega)
        have hfn : c3.has F.A (.fn ps b sc') (c3.s.stack (ra F reg)) := by
          rw [k3 _ (by omega), k2 _ (by omega), v1]
          exact t3.eff.has (t2.eff.has (t1.eff.has rv))
        have hself : F.A.own = true → vtest (c3.s.stack (ra F (reg+1))) = true := by
          intro ho
          rw [k3 _ (by omega), v2]
          exact t1.good.self ho
        cases d with
        | zero => simp at h
        | succ d =>
        simp only [] at h
        rw [hac] at h4
        obtain ⟨T, c4, ok, x', g4, st4, m4, n4, p4, hp4, low, s4a, s4b⟩ := step_call x t3.good (by omega) hst (by omega) (by rw [p3]; exact h4) hfn hself v3 rfl hlen
        obtain ⟨ee, hd, hb⟩ := ok.code
        have hLs := ok.locals
        have hsc : ∀ z ∈ T.L, ∃ i, c3.env.pars.length ≤ i ∧ place (scopeOf ps c3.env.pars.length ++ sc') z = .par i := by
          intro z hz
          rw [hLs.1] at hz
          exact ⟨_, Nat.le_add_right _ _, place_in hLs.2.1 (idx_get hz)⟩
        rcases hb2 : eval F.A.ok n d (scopeOf ps c3.env.pars.length ++ sc') b { c3.env with pars := c3.env.pars ++ vs } with _ | ⟨ob, eb⟩
        · rw [hb2] at h; simp at h
        rw [hb2] at h
        have sb := ih0 d _ x' b none 0 0 ee eb ob c4 (by rw [n4]; exact hb2) hb ok.guard g4 p4 (by have := ok.width; omega) (by have := hd.len; show ee ≤ T.f.len; omega)
        have fin : ∀ (c5 : Cfg) (r : Nat) (vo : Option V), To ⟨F.A, T, scopeOf ps c3.env.pars.length ++ sc', ra F F.T.f.stack + 2⟩ c4 c5 →
            c5.s.pos < T.f.len → T.f.code c5.s.pos = ⟨.ret, (r : Nat), 0⟩ → r < 300 →
            (∀ v, vo = some v → c5.has F.A v (c5.s.stack (ra ⟨F.A, T, scopeOf ps c3.env.pars.length ++ sc', ra F F.T.f.stack + 2⟩ r))) →
            Sim F lp reg (m+1) F.A.own c c5.env (.val vo) := by
          intro c5 r vo t5 b1 b2 b3 b4
          obtain ⟨c6, s6, f6, g6, n6, m6, h6, p6, v6, k6, s6a⟩ := step_back x t3.good x' hsc m4 n4 hp4 low s4a s4b t5.eff t5.good b1 b2 b3 (by omega)
            (by rw [p3]; exact h4) hst (by omega)
          have t6 : To F c3 c6 := ⟨(Star.one st4).trans (t5.star.trans (Star.one s6)), f6, g6⟩
          refine ⟨c6, ((t1.trans t2).trans t3).trans t6, n6, by rw [p6, p3], fun j hj => ?_, fun v0 e => ?_, fun ho _ => ?_⟩
          · rw [k6 _ (by unfold ra; omega) (by unfold ra; omega), k3 _ (by omega), k2 _ (by omega), k1 _ (by omega)]
          · rw [v6]
            have := b4 v0 e
            unfold Cfg.has at this ⊢
            rw [h6, m6]; exact this
          · refine ⟨?_, fun hu => by rw [x.tidy hu] at ho; cases ho⟩
            by_cases hrs : reg + 1 < F.T.f.stack
            · rw [k6 _ (by unfold ra; omega) (by unfold ra; omega)]
              exact hself ho
            · obtain hrs : reg + 1 = F.T.f.stack := by omega
              rw [hrs, s6a]; rfl
        cases ob with
        | val v =>
          obtain ⟨rfl, rfl⟩ := by simpa using h
          obtain ⟨c5, t5, rfl, p5, _, v5, _⟩ := sb
          exact fin c5 0 v t5 (by rw [p5, hd.len]; omega) (by rw [p5]; exact hd.ret) (by omega) v5
        | brk => simp at h
        | cont => simp at h
        | ret v =>
          obtain ⟨rfl, rfl⟩ := by simpa using h
          obtain ⟨c5, r, t5, rfl, b1, b2, b3, b4⟩ := sb
          exact fin c5 r (some v) t5 b1 b2 b3 (fun v0 e => Option.some.inj e ▸ b4)
      · simp at h
  · intro d F x as lp reg pos q env' vs c h hc hg g hp hw hq
    cases as with
    | nil =>
      simp only [evalArgs] at h
      obtain ⟨rfl, rfl⟩ := by simpa using h
      simp only [toArgs, CodeAt] at hc
      subst hc hp
      exact ⟨c, To.refl g, rfl, rfl, fun _ _ => rfl, by simp⟩
    | cons a r =>
      simp only [evalArgs] at h
      simp only [toArgs, width, guardedArgs, Bool.and_eq_true] at hw hg
      obtain ⟨m, h1, h2⟩ := hc
      have l2 := CodeAt.le _ _ _ _ _ h2
      rcases hr : eval F.A.ok n d F.sc a c.env with _ | ⟨oa, ea⟩
      · rw [hr] at h; simp at h
      rw [hr] at h
      have sa := ih0 d F x _ _ _ _ _ _ _ _ hr h1 hg.1 g hp (by omega) (by omega)
      cases oa with
      | val v =>
        cases v with
        | none => simp at h
        | some v =>
          simp only [] at h
          obtain ⟨c1, t1, rfl, p1, k1, v1, _⟩ := sa
          rcases hrr : evalArgs F.A.ok n d F.sc r c1.env with _ | ⟨ws, eb⟩
          · rw [hrr] at h; simp at h
          rw [hrr] at h
          obtain ⟨rfl, rfl⟩ := by simpa using h
          obtain ⟨c2, t2, rfl, p2, k2, v2⟩ := iha0 d F x _ _ _ _ _ _ _ _ hrr h2 hg.2 t1.good p1 (by omega) hq
          refine ⟨c2, t1.trans t2, rfl, p2, fun j hj => (k2 j (by omega)).trans (k1 j hj), fun j w hj => ?_⟩
          cases j with
          | zero =>
            obtain rfl := by simpa using hj
            have e := k2 reg (by omega)
            show c2.has F.A v (c2.s.stack (ra F (reg + 0)))
            rw [show reg + 0 = reg from rfl, e]
            exact t2.eff.has (v1 v rfl)
          | succ j =>
            rw [show reg + (j + 1) = reg + 1 + j by omega]
            exact v2 j w (by simpa using hj)
      | brk => simp at h
      | cont => simp at h
      | ret v => simp at h

end Potion.Compile
