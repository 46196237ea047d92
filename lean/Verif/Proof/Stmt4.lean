import Verif.Proof.Stmt3
/-! Proof of C77_one_end: a program ends in one way at most. -/
namespace Potion.Send
open Potion Potion.Peg Potion.CompileAll

variable {V S E : Type} {W : World V S E} {me : V}

/-- At most one end. -/
def Det {α : Type} (R : Mem V S → Res V S E α → Prop) : Prop := ∀ s r r', R s r → R s r' → r = r'

theorem Det.of_eq {α : Type} {x : M V S E α} : Det (fun s r => x s = r) := fun _ _ _ h h' => h.symm.trans h'
theorem Det.stay {α : Type} {v : α} : Det (Stay (V := V) (S := S) (E := E) v) := fun _ _ _ h h' => h.trans h'.symm
theorem Det.then {α β : Type} {R : Mem V S → Res V S E α → Prop} {R' : α → Mem V S → Res V S E β → Prop} (h : Det R) (h' : ∀ a, Det (R' a)) : Det (Then R R') := by
  rintro s r r' (⟨e, h1, rfl⟩ | ⟨a, s1, h1, h2⟩) (⟨e', h3, rfl⟩ | ⟨a', s1', h3, h4⟩)
  · have := h _ _ _ h1 h3; cases this; rfl
  · have := h _ _ _ h1 h3; cases this
  · have := h _ _ _ h1 h3; cases this
  · have := h _ _ _ h1 h3; cases this; exact h' _ _ _ _ h2 h4
theorem Det.loop {c : Mem V S → Res V S E Bool} {B : V → Mem V S → Res V S E (Exit V) → Prop} (h : ∀ v, Det (B v)) (v : V) : Det (Loop c B v) := by
  have key : ∀ {v s a b}, B v s a → B v s b → a = b := fun h1 h2 => h _ _ _ _ h1 h2
  intro s r r' h1
  induction h1 generalizing r' with
  | fail e1 => intro h2; cases h2 with
    | fail e2 => rw [e1] at e2; cases e2; rfl
    | done e2 => rw [e1] at e2; cases e2
    | bodyFail e2 | brk e2 | ret e2 | again e2 | cont e2 => rw [e1] at e2; cases e2
  | done e1 => intro h2; cases h2 with
    | fail e2 => rw [e1] at e2; cases e2
    | done e2 => rw [e1] at e2; cases e2; rfl
    | bodyFail e2 | brk e2 | ret e2 | again e2 | cont e2 => rw [e1] at e2; cases e2
  | bodyFail e1 b1 => intro h2; cases h2 with
    | fail e2 => rw [e1] at e2; cases e2
    | done e2 => rw [e1] at e2; cases e2
    | bodyFail e2 b2 | brk e2 b2 | ret e2 b2 | again e2 b2 | cont e2 b2 => rw [e1] at e2; cases e2; have := key b1 b2; cases this; try rfl
  | brk e1 b1 => intro h2; cases h2 with
    | fail e2 => rw [e1] at e2; cases e2
    | done e2 => rw [e1] at e2; cases e2
    | bodyFail e2 b2 | brk e2 b2 | ret e2 b2 | again e2 b2 | cont e2 b2 => rw [e1] at e2; cases e2; have := key b1 b2; cases this; try rfl
  | ret e1 b1 => intro h2; cases h2 with
    | fail e2 => rw [e1] at e2; cases e2
    | done e2 => rw [e1] at e2; cases e2
    | bodyFail e2 b2 | brk e2 b2 | ret e2 b2 | again e2 b2 | cont e2 b2 => rw [e1] at e2; cases e2; have := key b1 b2; cases this; try rfl
  | again e1 b1 _ ih => intro h2; cases h2 with
    | fail e2 => rw [e1] at e2; cases e2
    | done e2 => rw [e1] at e2; cases e2
    | again e2 b2 l2 => rw [e1] at e2; cases e2; have := key b1 b2; cases this; exact ih _ l2
    | bodyFail e2 b2 | brk e2 b2 | ret e2 b2 | cont e2 b2 => rw [e1] at e2; cases e2; have := key b1 b2; cases this
  | cont e1 b1 _ ih => intro h2; cases h2 with
    | fail e2 => rw [e1] at e2; cases e2
    | done e2 => rw [e1] at e2; cases e2
    | cont e2 b2 l2 => rw [e1] at e2; cases e2; have := key b1 b2; cases this; exact ih _ l2
    | bodyFail e2 b2 | brk e2 b2 | ret e2 b2 | again e2 b2 => rw [e1] at e2; cases e2; have := key b1 b2; cases this

mutual
theorem runS_det : ∀ (x : Stm) (K : List Ident) (v : V), Det (RunS W me x K v : Mem V S → Res V S E (Exit V) → Prop)
  | .ex e, K, v => by rw [RunS]; exact Det.of_eq.then fun _ => Det.stay
  | .ret e, K, v => by rw [RunS]; exact Det.of_eq.then fun _ => Det.stay
  | .brk, K, v => by rw [RunS]; exact Det.stay
  | .cont, K, v => by rw [RunS]; exact Det.stay
  | .ifs c b t, K, v => by
      rw [RunS]
      refine Det.of_eq.then fun a => ?_
      split
      · exact runB_det b _ v
      · exact runT_det t _ v
  | .while c b, K, v => by rw [RunS]; exact Det.loop (fun v => runB_det b _ v) v
  | .loop b, K, v => by rw [RunS]; exact Det.loop (fun v => runB_det b _ v) v
theorem runB_det : ∀ (b : Stms) (K : List Ident) (v : V), Det (RunB W me b K v : Mem V S → Res V S E (Exit V) → Prop)
  | .nil, K, v => by rw [RunB]; exact Det.stay
  | .cons x b, K, v => by
      rw [RunB]
      refine (runS_det x K v).then fun o => ?_
      cases o with
      | norm v => exact runB_det b _ v
      | brk v => exact Det.stay
      | cont v => exact Det.stay
      | ret v => exact Det.stay
theorem runT_det : ∀ (t : Tails) (K : List Ident) (v : V), Det (RunT W me t K v : Mem V S → Res V S E (Exit V) → Prop)
  | .none, K, v => by rw [RunT]; exact Det.stay
  | .els b, K, v => by rw [RunT]; exact runB_det b K v
  | .elsif c b t, K, v => by
      rw [RunT]
      refine Det.of_eq.then fun a => ?_
      split
      · exact runB_det b _ v
      · exact runT_det t _ v
end
theorem runP_det (b : Stms) (v : V) : Det (RunP W me b v : Mem V S → Res V S E V → Prop) := (runB_det b [] v).then fun _ => Det.stay

end Potion.Send
