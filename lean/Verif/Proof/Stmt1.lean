import Verif.Proof.Send8
import Verif.Spec.Stmt
/-! Proof of C77_statements: code that does what a relation says; jumps, branches and loops. -/
namespace Potion.Send
open Potion Potion.Peg Potion.CompileAll Potion.Vm

variable {V S E : Type} {W : World V S E} {me : V} {f : Fn}

/-- At least `k` instructions are run. -/
def Long (W : World V S E) (me : V) (f : Fn) (k : Nat) (s : St V S) : Prop := ∃ t, run W me f k s = .go t

theorem Long.zero {s : St V S} : Long W me f 0 s := ⟨s, rfl⟩
theorem Long.less {s : St V S} : ∀ {k j : Nat}, Long W me f (k + j) s → Long W me f k s := by
  intro k
  induction k generalizing s with
  | zero => exact fun _ => .zero
  | succ k ih =>
    rintro j ⟨t, h⟩
    rw [show k + 1 + j = (k + j) + 1 by omega, run] at h
    cases hs : step W me f s with
    | go s' =>
      rw [hs] at h
      obtain ⟨t', h'⟩ := ih ⟨t, h⟩
      exact ⟨t', by rw [run, hs]; exact h'⟩
    | _ => rw [hs] at h; simp at h
theorem Long.path {a b : St V S} {k} (h : Path W me f a b) (h' : Long W me f k b) : Long W me f k a := by
  obtain ⟨n, hn⟩ := h.run
  obtain ⟨t, ht⟩ := h'
  refine Long.less (j := n) ⟨t, ?_⟩
  rw [Nat.add_comm, hn, ht]
theorem Long.step {a b : St V S} {k} (h : step W me f a = .go b) (h' : Long W me f k b) : Long W me f (k + 1) a := by
  obtain ⟨t, ht⟩ := h'
  exact ⟨t, by rw [run, h]; exact ht⟩

/-- From `s0` the code stops as `r` says, or gets to a place as in `Q`. -/
def EndsX {α : Type} (W : World V S E) (me : V) (f : Fn) (s0 : St V S) (Q : α → Nat → (Nat → V) → Prop) : Res V S E α → Prop
  | .error e => Stops W me f s0 e
  | .ok (a, s') => ∃ n r l, Path W me f s0 ⟨n, r, l, s'.mem⟩ ∧ Agree f.locals l s'.var ∧ Q a n r

/-- The code of `f` at `n0`, started with `regs`, ends as `R` says, and goes on for ever if `R` says nothing. -/
def Meets {α : Type} (W : World V S E) (me : V) (f : Fn) (n0 : Nat) (regs : Nat → V) (R : Mem V S → Res V S E α → Prop) (Q : α → Nat → (Nat → V) → Prop) : Prop :=
  ∀ loc s, Agree f.locals loc s.var → (∀ r, R s r → EndsX W me f ⟨n0, regs, loc, s.mem⟩ Q r) ∧
    ∀ k, Long W me f k ⟨n0, regs, loc, s.mem⟩ ∨ ∃ r, R s r

theorem Ends.toX {α : Type} {s0 : St V S} {n1 : Nat} {Q : α → (Nat → V) → Prop} {r : Res V S E α} (h : Ends W me f s0 n1 Q r) :
    EndsX W me f s0 (fun a n r => n = n1 ∧ Q a r) r := by
  cases r with
  | error e => exact h
  | ok p => obtain ⟨r, l, p, a, q⟩ := h; exact ⟨n1, r, l, p, a, rfl, q⟩
theorem Does.meets {α : Type} {n0 n1 : Nat} {regs : Nat → V} {x : M V S E α} {Q : α → (Nat → V) → Prop} (h : Does W me f n0 regs x n1 Q) :
    Meets W me f n0 regs (fun s r => x s = r) (fun a n r => n = n1 ∧ Q a r) :=
  fun loc s hA => ⟨fun _ hr => hr ▸ (h loc s hA).toX, fun _ => .inr ⟨_, rfl⟩⟩

theorem EndsX.path {α : Type} {s0 s1 : St V S} {Q : α → Nat → (Nat → V) → Prop} {r : Res V S E α} (h : Path W me f s0 s1) (h' : EndsX W me f s1 Q r) :
    EndsX W me f s0 Q r := by
  cases r with
  | error e => obtain ⟨t, p, q⟩ := h'; exact ⟨t, h.trans p, q⟩
  | ok p => obtain ⟨n, r, l, p, a, q⟩ := h'; exact ⟨n, r, l, h.trans p, a, q⟩
/-- On after the end, without an effect. -/
theorem Meets.on {α : Type} {n0 : Nat} {regs : Nat → V} {R : Mem V S → Res V S E α → Prop} {Q Q' : α → Nat → (Nat → V) → Prop} (h : Meets W me f n0 regs R Q)
    (hs : ∀ a n r, Q a n r → ∃ n', (∀ loc m, Path W me f ⟨n, r, loc, m⟩ ⟨n', r, loc, m⟩) ∧ Q' a n' r) : Meets W me f n0 regs R Q' := by
  refine fun loc s hA => ⟨fun r hr => ?_, (h loc s hA).2⟩
  have := (h loc s hA).1 r hr
  cases r with
  | error e => exact this
  | ok p =>
    obtain ⟨n, r, l, p, a, q⟩ := this
    obtain ⟨n', h1, h2⟩ := hs _ _ _ q
    exact ⟨n', r, l, p.trans (h1 _ _), a, h2⟩
theorem Meets.conseq {α : Type} {n0 : Nat} {regs : Nat → V} {R : Mem V S → Res V S E α → Prop} {Q Q' : α → Nat → (Nat → V) → Prop} (h : Meets W me f n0 regs R Q)
    (hQ : ∀ a n r, Q a n r → Q' a n r) : Meets W me f n0 regs R Q' :=
  h.on fun a n r q => ⟨n, fun _ _ => .refl _, hQ a n r q⟩
theorem Meets.path {α : Type} {n0 n : Nat} {regs : Nat → V} {R : Mem V S → Res V S E α → Prop} {Q : α → Nat → (Nat → V) → Prop}
    (hs : ∀ loc m, Path W me f ⟨n0, regs, loc, m⟩ ⟨n, regs, loc, m⟩) (h : Meets W me f n regs R Q) : Meets W me f n0 regs R Q :=
  fun loc s hA => ⟨fun r hr => .path (hs loc s.mem) ((h loc s hA).1 r hr), fun k => ((h loc s hA).2 k).imp_left (.path (hs loc s.mem))⟩

theorem Meets.stay {α : Type} {n : Nat} {regs : Nat → V} {a : α} {Q : α → Nat → (Nat → V) → Prop} (h : Q a n regs) :
    Meets W me f n regs (Stay (V := V) (S := S) (E := E) a) Q :=
  fun loc s hA => ⟨fun r hr => hr ▸ ⟨n, regs, loc, .refl _, hA, h⟩, fun _ => .inr ⟨_, rfl⟩⟩

theorem Meets.then {α β : Type} {n0 : Nat} {regs : Nat → V} {R : Mem V S → Res V S E α → Prop} {R' : α → Mem V S → Res V S E β → Prop}
    {Q : α → Nat → (Nat → V) → Prop} {Q' : β → Nat → (Nat → V) → Prop} (h : Meets W me f n0 regs R Q) (h' : ∀ a n r, Q a n r → Meets W me f n r (R' a) Q') :
    Meets W me f n0 regs (Then R R') Q' := by
  refine fun loc s hA => ⟨fun r hr => ?_, fun k => ?_⟩
  · rcases hr with ⟨e, h1, rfl⟩ | ⟨a, s', h1, h2⟩
    · exact (h loc s hA).1 _ h1
    · obtain ⟨n1, r1, l1, p1, a1, q1⟩ := (h loc s hA).1 _ h1
      exact .path p1 ((h' a n1 r1 q1 l1 s' a1).1 r h2)
  · rcases (h loc s hA).2 k with h1 | ⟨r, hr⟩
    · exact .inl h1
    · cases r with
      | error e => exact .inr ⟨_, .inl ⟨e, hr, rfl⟩⟩
      | ok p =>
        obtain ⟨a, s'⟩ := p
        obtain ⟨n1, r1, l1, p1, a1, q1⟩ := (h loc s hA).1 _ hr
        exact ((h' a n1 r1 q1 l1 s' a1).2 k).imp (.path p1) fun ⟨r, h⟩ => ⟨r, .inr ⟨a, s', hr, h⟩⟩

/-- At `n` there is a jump to `t`. -/
def Jmp (f : Fn) (n t : Nat) : Prop := n < f.len ∧ f.code n = ⟨.jmp, (t : Int) - n - 1, 0⟩
theorem Jmp.step {n t : Nat} (h : Jmp f n t) (regs : Nat → V) (loc : Nat → V) (m : S) : step W me f ⟨n, regs, loc, m⟩ = .go ⟨t, regs, loc, m⟩ := by
  unfold Send.step; rw [if_pos h.1]; simp only [h.2]
  congr 2
  omega

/-- Where statements end: at `n1`, a jump to the end or the start of the loop, or a return; the value is in register 0. Quiet statements leave the other registers. -/
def XPost (f : Fn) (n1 tb tc : Nat) (q : Bool) (regs : Nat → V) : Exit V → Nat → (Nat → V) → Prop
  | .norm v, n, r => n = n1 ∧ r 0 = v ∧ (q = true → ∀ i ≠ 0, r i = regs i)
  | .brk v, n, r => Jmp f n tb ∧ r 0 = v
  | .cont v, n, r => Jmp f n tc ∧ r 0 = v
  | .ret v, n, r => At f n .ret 0 0 ∧ r 0 = v

theorem Meets.loop {n0 n2 n1 k0 tb tc : Nat} {c : Mem V S → Res V S E Bool} {B : V → Mem V S → Res V S E (Exit V) → Prop}
    (hc : ∀ regs loc s, Agree f.locals loc s.var → EndsX W me f ⟨n0, regs, loc, s.mem⟩ (fun b n r => r 0 = regs 0 ∧ n = if b then n2 else n1) (c s))
    (hb : ∀ regs, Meets W me f n2 regs (B (regs 0)) (XPost f k0 n1 n0 false regs)) (hk : Jmp f k0 n0) :
    ∀ regs, Meets W me f n0 regs (Loop c B (regs 0)) (XPost f n1 tb tc false regs) := by
  have fwd : ∀ v s r, Loop c B v s r → ∀ regs loc regs', regs 0 = v → Agree f.locals loc s.var →
      EndsX W me f ⟨n0, regs, loc, s.mem⟩ (XPost f n1 tb tc false regs') r := by
    intro v s r h
    induction h with
    | @fail v s e h =>
      intro regs loc _ _ hA
      have := hc regs loc s hA
      rw [h] at this; exact this
    | @done v s s' h =>
      intro regs loc _ hv hA
      have := hc regs loc s hA
      rw [h] at this
      obtain ⟨n, r1, l1, p1, a1, q1, rfl⟩ := this
      exact ⟨_, r1, l1, p1, a1, rfl, q1.trans hv, fun h => by contradiction⟩
    | @bodyFail v s s' e h hB =>
      intro regs loc _ hv hA
      have := hc regs loc s hA
      rw [h] at this
      obtain ⟨n, r1, l1, p1, a1, q1, rfl⟩ := this
      exact EndsX.path (α := Exit V) (r := .error e) p1 ((hb r1 l1 s' a1).1 (.error e) (by rw [q1, hv]; exact hB))
    | @brk v s s' v' s'' h hB =>
      intro regs loc _ hv hA
      have := hc regs loc s hA
      rw [h] at this
      obtain ⟨n, r1, l1, p1, a1, q1, rfl⟩ := this
      obtain ⟨n, r2, l2, p2, a2, q3, q4⟩ := (hb r1 l1 s' a1).1 (.ok (.brk v', s'')) (by rw [q1, hv]; exact hB)
      exact ⟨n1, r2, l2, p1.trans (p2.trans (.step (q3.step _ _ _) (.refl _))), a2, rfl, q4, fun h => by contradiction⟩
    | @ret v s s' v' s'' h hB =>
      intro regs loc _ hv hA
      have := hc regs loc s hA
      rw [h] at this
      obtain ⟨n, r1, l1, p1, a1, q1, rfl⟩ := this
      obtain ⟨n, r2, l2, p2, a2, q3, q4⟩ := (hb r1 l1 s' a1).1 (.ok (.ret v', s'')) (by rw [q1, hv]; exact hB)
      exact ⟨n, r2, l2, p1.trans p2, a2, q3, q4⟩
    | @again v s s' v' s'' r h hB _ ih =>
      intro regs loc regs' hv hA
      have := hc regs loc s hA
      rw [h] at this
      obtain ⟨n, r1, l1, p1, a1, q1, rfl⟩ := this
      obtain ⟨n, r2, l2, p2, a2, rfl, q3, _⟩ := (hb r1 l1 s' a1).1 (.ok (.norm v', s'')) (by rw [q1, hv]; exact hB)
      exact .path (p1.trans (p2.trans (.step (hk.step _ _ _) (.refl _)))) (ih r2 l2 regs' q3 a2)
    | @cont v s s' v' s'' r h hB _ ih =>
      intro regs loc regs' hv hA
      have := hc regs loc s hA
      rw [h] at this
      obtain ⟨n, r1, l1, p1, a1, q1, rfl⟩ := this
      obtain ⟨n, r2, l2, p2, a2, q3, q4⟩ := (hb r1 l1 s' a1).1 (.ok (.cont v', s'')) (by rw [q1, hv]; exact hB)
      exact .path (p1.trans (p2.trans (.step (q3.step _ _ _) (.refl _)))) (ih r2 l2 regs' q4 a2)
  intro regs loc s hA
  refine ⟨fun r hr => fwd _ _ _ hr regs loc regs rfl hA, fun k => ?_⟩
  induction k generalizing regs loc s with
  | zero => exact .inl .zero
  | succ k ih =>
    have hd := hc regs loc s hA
    cases hx : c s with
    | error e => exact .inr ⟨_, .fail hx⟩
    | ok p =>
      obtain ⟨a, s'⟩ := p
      rw [hx] at hd
      obtain ⟨n, r1, l1, p1, a1, q1, rfl⟩ := hd
      cases a with
      | false => exact .inr ⟨_, .done hx⟩
      | true =>
        rcases (hb r1 l1 s' a1).2 (k + 1) with h1 | ⟨r, hr⟩
        · exact .inl (.path p1 h1)
        · cases r with
          | error e => exact .inr ⟨_, .bodyFail hx (by rw [← q1]; exact hr)⟩
          | ok p =>
            obtain ⟨o, s''⟩ := p
            obtain ⟨n, r2, l2, p2, a2, q3⟩ := (hb r1 l1 s' a1).1 _ hr
            cases o with
            | brk v' => exact .inr ⟨_, .brk hx (by rw [← q1]; exact hr)⟩
            | ret v' => exact .inr ⟨_, .ret hx (by rw [← q1]; exact hr)⟩
            | norm v' =>
              obtain ⟨rfl, q3, _⟩ := q3
              rcases ih r2 l2 s'' a2 with h1 | ⟨r, hr'⟩
              · exact .inl (.path (p1.trans p2) (.step (hk.step _ _ _) h1))
              · exact .inr ⟨r, .again hx (by rw [← q1]; exact hr) (by rw [← q3]; exact hr')⟩
            | cont v' =>
              obtain ⟨q3, q4⟩ := q3
              rcases ih r2 l2 s'' a2 with h1 | ⟨r, hr'⟩
              · exact .inl (.path (p1.trans p2) (.step (q3.step _ _ _) h1))
              · exact .inr ⟨r, .cont hx (by rw [← q1]; exact hr) (by rw [← q4]; exact hr')⟩

end Potion.Send
