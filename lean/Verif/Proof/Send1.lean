import Verif.Spec.Send
import Verif.Proof.CompileAll1
/-! Proof of C77: instructions as computations. -/
namespace Potion.Send
open Potion Potion.Peg Potion.CompileAll Potion.Vm

variable {V S E : Type} {W : World V S E} {me : V} {f : Fn}

inductive Path (W : World V S E) (me : V) (f : Fn) : St V S → St V S → Prop
  | refl (s) : Path W me f s s
  | step {s s' t} : step W me f s = .go s' → Path W me f s' t → Path W me f s t

theorem Path.trans {a b c : St V S} (h : Path W me f a b) (h' : Path W me f b c) : Path W me f a c := by
  induction h with
  | refl => exact h'
  | step h1 _ ih => exact .step h1 (ih h')

def Stops (W : World V S E) (me : V) (f : Fn) (s : St V S) (e : E) : Prop := ∃ t, Path W me f s t ∧ step W me f t = .stop e

theorem Path.run {a b : St V S} (h : Path W me f a b) : ∃ n, ∀ k, run W me f (n + k) a = run W me f k b := by
  induction h with
  | refl s => exact ⟨0, fun k => by rw [Nat.zero_add]⟩
  | @step s s' t h1 _ ih =>
    obtain ⟨n, hn⟩ := ih
    refine ⟨n + 1, fun k => ?_⟩
    rw [show n + 1 + k = (n + k) + 1 by omega]
    rw [Send.run, h1]; exact hn k

/-- The locals hold the variables. -/
def Agree (names : List Tree) (loc : Nat → V) (var : Ident → V) : Prop := ∀ x i, find names (.str x) = some i → loc i = var x

/-- From `s0` the code stops as `r` says, or gets to `n1`. -/
def Ends {α : Type} (W : World V S E) (me : V) (f : Fn) (s0 : St V S) (n1 : Nat) (Q : α → (Nat → V) → Prop) : Except E (α × Mem V S) → Prop
  | .error e => Stops W me f s0 e
  | .ok (a, s') => ∃ reg' loc', Path W me f s0 ⟨n1, reg', loc', s'.mem⟩ ∧ Agree f.locals loc' s'.var ∧ Q a reg'

/-- The code of `f` from `n0` to `n1`, started with `reg`, does `x`. -/
def Does {α : Type} (W : World V S E) (me : V) (f : Fn) (n0 : Nat) (reg : Nat → V) (x : M V S E α) (n1 : Nat) (Q : α → (Nat → V) → Prop) : Prop :=
  ∀ loc (s : Mem V S), Agree f.locals loc s.var → Ends W me f ⟨n0, reg, loc, s.mem⟩ n1 Q (x s)

theorem Does.pure {α : Type} {n : Nat} {reg : Nat → V} {a : α} {Q : α → (Nat → V) → Prop} (h : Q a reg) :
    Does W me f n reg (pure a : M V S E α) n Q := fun loc _ hA => ⟨reg, loc, .refl _, hA, h⟩

theorem Does.conseq {α : Type} {n0 n1 : Nat} {reg : Nat → V} {x : M V S E α} {Q Q' : α → (Nat → V) → Prop} (h : Does W me f n0 reg x n1 Q)
    (hQ : ∀ a r, Q a r → Q' a r) : Does W me f n0 reg x n1 Q' := by
  intro loc s hA
  have := h loc s hA
  cases hx : x s with
  | error e => rw [hx] at this; exact this
  | ok p =>
    rw [hx] at this
    obtain ⟨r, l, h1, h2, h3⟩ := this
    exact ⟨r, l, h1, h2, hQ _ _ h3⟩

theorem bind_error {α β : Type} {x : M V S E α} {g : α → M V S E β} {s e} (h : x s = .error e) : (x >>= g) s = .error e := by
  simp only [Bind.bind, h]
theorem bind_ok {α β : Type} {x : M V S E α} {g : α → M V S E β} {s a s'} (h : x s = .ok (a, s')) : (x >>= g) s = g a s' := by
  simp only [Bind.bind, h]

theorem Does.bind {α β : Type} {n0 n1 n2 : Nat} {reg : Nat → V} {x : M V S E α} {g : α → M V S E β} {Q : α → (Nat → V) → Prop} {Q' : β → (Nat → V) → Prop}
    (h : Does W me f n0 reg x n1 Q) (h' : ∀ a r, Q a r → Does W me f n1 r (g a) n2 Q') : Does W me f n0 reg (x >>= g) n2 Q' := by
  intro loc s hA
  have h1 := h loc s hA
  cases hx : x s with
  | error e => rw [hx] at h1; rw [bind_error hx]; exact h1
  | ok p =>
    obtain ⟨a, s'⟩ := p
    rw [hx] at h1; rw [bind_ok hx]
    obtain ⟨r, l, p1, a1, q1⟩ := h1
    have h2 := h' a r q1 l s' a1
    cases hg : g a s' with
    | error e =>
      rw [hg] at h2
      obtain ⟨t, p2, e2⟩ := h2
      exact ⟨t, p1.trans p2, e2⟩
    | ok p =>
      rw [hg] at h2
      obtain ⟨r2, l2, p2, a2, q2⟩ := h2
      exact ⟨r2, l2, p1.trans p2, a2, q2⟩

/-- An instruction that stores a result. -/
theorem Does.prim {n a : Nat} {reg : Nat → V} {x : S → Except E (V × S)}
    (h : ∀ loc m, step W me f ⟨n, reg, loc, m⟩ = St.res ⟨n, reg, loc, m⟩ a (x m)) :
    Does W me f n reg (Send.prim x) (n + 1) (fun v r => r = upd reg a v) := by
  intro loc s hA
  have h1 := h loc s.mem
  unfold Send.prim
  cases hx : x s.mem with
  | error e =>
    rw [hx] at h1
    exact ⟨_, .refl _, h1⟩
  | ok p =>
    obtain ⟨v, m⟩ := p
    rw [hx] at h1
    exact ⟨upd reg a v, loc, .step h1 (.refl _), hA, rfl⟩

/-- An instruction whose effect is a value known before. -/
theorem Does.silent {α : Type} {n n1 a : Nat} {reg : Nat → V} {v : V} {x : M V S E α} {Q : α → (Nat → V) → Prop}
    (h : ∀ loc m, step W me f ⟨n, reg, loc, m⟩ = St.res ⟨n, reg, loc, m⟩ a (.ok (v, m)))
    (h' : Does W me f (n + 1) (upd reg a v) x n1 Q) : Does W me f n reg x n1 Q := by
  have h0 : Does W me f n reg (Pure.pure v : M V S E V) (n + 1) (fun _ r => r = upd reg a v) := by
    intro loc s hA
    exact ⟨upd reg a v, loc, .step (h loc s.mem) (.refl _), hA, rfl⟩
  have := Does.bind (g := fun _ => x) h0 (fun _ r hr => hr ▸ h')
  exact this

theorem upd_same {r : Nat → V} {i v} : upd r i v i = v := by simp [upd]
theorem upd_other {r : Nat → V} {i j : Nat} {v} (h : j ≠ i) : upd r i v j = r j := by simp [upd, h]

theorem block_congr {r r' : Nat → V} : ∀ {i n : Nat}, (∀ j, i ≤ j → j < i + n → r j = r' j) → block r i n = block r' i n
  | _, 0, _ => rfl
  | i, n+1, h => by
    rw [block, block, h i (by omega) (by omega), block_congr (i := i + 1) (fun j h1 h2 => h j (by omega) (by omega))]
theorem block_length {r : Nat → V} : ∀ {i n : Nat}, (block r i n).length = n
  | _, 0 => rfl
  | i, n+1 => by rw [block, List.length_cons, block_length]

/-- The instruction at `n`. -/
def At (f : Fn) (n : Nat) (op : Op) (a b : Nat) : Prop := n < f.len ∧ f.code n = ⟨op, (a : Int), (b : Int)⟩

/-- `CALL`. -/
theorem Does.call {n a b k : Nat} {reg : Nat → V} {fv sv : V} {vs : List V} (h : At f n .call a b) (hb : b = a + 1 + k) (h1 : reg a = fv)
    (h2 : reg (a + 1) = sv) (h3 : block reg (a + 2) k = vs) :
    Does W me f n reg (invoke W fv sv vs) (n + 1) (fun v r => r a = v ∧ ∀ i < a, r i = reg i) := by
  intro loc s hA
  have hs : step W me f ⟨n, reg, loc, s.mem⟩ = Send.call W a b ⟨n, reg, loc, s.mem⟩ := by
    unfold step; rw [if_pos h.1, h.2]; simp
  have hk : b - a - 1 = k := by omega
  have hen : ∀ (g sv : V) (reg0 : Nat → V) (m : S), reg0 (a + 1) = sv → block reg0 (a + 2) k = vs → (∀ i < a, reg0 i = reg i) →
      step W me f ⟨n, reg, loc, s.mem⟩ = Send.call.enter W g a b ⟨n, reg0, loc, m⟩ →
      Ends W me f ⟨n, reg, loc, s.mem⟩ (n + 1) (fun v r => r a = v ∧ ∀ i < a, r i = reg i)
        (Send.prim (W.enter g sv vs) ({ s with mem := m } : Mem V S)) := by
    intro g sv reg0 m e1 e2 e3 e4
    unfold Send.call.enter at e4
    dsimp only at e4
    rw [hk, e1, e2] at e4
    unfold Send.prim
    cases hx : W.enter g sv vs m with
    | error e => rw [hx] at e4; exact ⟨_, .refl _, e4⟩
    | ok p =>
      obtain ⟨v, m'⟩ := p
      rw [hx] at e4
      refine ⟨_, loc, .step e4 (.refl _), hA, upd_same, fun i hi => ?_⟩
      rw [upd_other (by omega)]
      dsimp only
      rw [if_neg (by omega)]
      exact e3 i hi
  unfold Send.call at hs
  unfold invoke
  rw [bind_ok (a := W.kind fv s.mem) (s' := s) rfl]
  dsimp only at hs
  rw [h1] at hs
  cases hk1 : W.kind fv s.mem with
  | closure =>
    rw [hk1] at hs
    exact hen fv sv reg s.mem h2 h3 (fun _ _ => rfl) hs
  | cls =>
    rw [hk1] at hs
    dsimp only at hs ⊢
    cases hn : W.new fv s.mem with
    | error e =>
      rw [hn] at hs
      rw [bind_error (e := e) (by unfold Send.prim; rw [hn])]
      exact ⟨_, .refl _, hs⟩
    | ok p =>
      obtain ⟨o, m⟩ := p
      rw [hn] at hs
      rw [bind_ok (a := o) (s' := { s with mem := m }) (by unfold Send.prim; rw [hn]), bind_ok (a := W.ctor fv m) (s' := { s with mem := m }) rfl]
      dsimp only at hs
      refine hen (W.ctor fv m) o (upd reg (a + 1) o) m upd_same ?_ (fun i hi => upd_other (by omega)) hs
      rw [← h3]
      exact block_congr fun j h1 h2 => upd_other (by omega)
  | other =>
    rw [hk1] at hs
    dsimp only at hs ⊢
    rw [bind_ok (a := W.callOf fv s.mem) (s' := s) rfl, bind_ok (a := W.kind (W.callOf fv s.mem) s.mem) (s' := s) rfl]
    cases hk2 : W.kind (W.callOf fv s.mem) s.mem with
    | closure =>
      rw [hk2] at hs
      dsimp only at hs ⊢
      have hb' : block (upd reg (a + 1) fv) (a + 2) (b - a - 1) = vs := by
        rw [hk, ← h3]; exact block_congr fun j h1 h2 => upd_other (by omega)
      rw [hb'] at hs
      unfold Send.prim
      cases hx : W.apply (W.callOf fv s.mem) fv vs s.mem with
      | error e => rw [hx] at hs; exact ⟨_, .refl _, hs⟩
      | ok p =>
        obtain ⟨v, m⟩ := p
        rw [hx] at hs
        exact ⟨_, loc, .step hs (.refl _), hA, upd_same, fun i hi => by rw [upd_other (by omega)]; exact upd_other (by omega)⟩
    | cls =>
      rw [hk2] at hs
      exact ⟨_, loc, .step hs (.refl _), hA, upd_same, fun i hi => by rw [upd_other (by omega)]; exact upd_other (by omega)⟩
    | other =>
      rw [hk2] at hs
      exact ⟨_, loc, .step hs (.refl _), hA, upd_same, fun i hi => by rw [upd_other (by omega)]; exact upd_other (by omega)⟩

end Potion.Send
