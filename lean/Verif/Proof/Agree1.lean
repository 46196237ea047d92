import Verif.Proof.CompileSame
/-! What compiling a fragment leaves as it is (no bound on the registers). -/
namespace Potion.Compile
open Potion Potion.Vm

/-- How a state goes on. -/
structure Up (a b : CSt) : Prop where
  rest : Rest a b
  locals : a.locals <+: b.locals

theorem Up.refl (a : CSt) : Up a a := ⟨.refl a, List.prefix_refl _⟩
theorem Up.trans {a b c : CSt} (h : Up a b) (h' : Up b c) : Up a c := ⟨h.rest.trans h'.rest, h.locals.trans h'.locals⟩
theorem Grow.up {a b : CSt} (h : Grow a b) : Up a b := ⟨h.rest, h.locals⟩
theorem Up.of {a b : CSt} (h1 : b.upvals = a.upvals) (h2 : b.protos = a.protos) (h3 : a.stack ≤ b.stack) (h4 : b.locals = a.locals) (h5 : b.outer = a.outer) :
    Up a b := ⟨.of h1 h2 h3 h4 h5, by rw [h4]; exact List.prefix_refl _⟩
theorem Up.asm (a : CSt) (op x y) : Up a (a.asm op x y) := (asm_grow ..).up
theorem Up.regs (a : CSt) (r) : Up a (a.regs r) := (regs_grow ..).up
theorem Up.patchB (a : CSt) (i d) : Up a (a.patchB i d) := .of rfl rfl (Nat.le_refl _) rfl rfl
theorem Up.loop (a : CSt) (l) : Up a { a with loop := l } := .of rfl rfl (Nat.le_refl _) rfl rfl
theorem Up.patchAll (a : CSt) (t l) : Up a (a.patchAll t l) := by
  obtain ⟨-, -, h3, -, ⟨h4, h5, h6, h7, -⟩, -⟩ := patchAll_eq l t a
  exact .of h4 h5 (Nat.le_of_eq h6.symm) h3 h7
theorem Up.captures (reg : Nat) : ∀ (xs : List Name) (a : CSt), Up a (a.captures reg xs)
  | [], a => .refl a
  | x :: xs, a => by
    rw [CSt.captures]
    split
    · exact (Up.asm ..).trans (Up.captures reg xs _)
    · exact (Up.asm ..).trans (Up.captures reg xs _)

theorem comp_up (t : Src) : ∀ arg count reg st st', comp t arg count reg st = some st' → Up st st' := by
  induction t with
  | skip => intro arg count reg st st' h; simp only [comp, Option.some.injEq] at h; subst h; exact .regs ..
  | seq a b iha ihb =>
    intro arg count reg st st' h
    simp only [comp] at h
    split at h
    · contradiction
    · rename_i s1 h1; exact (Up.regs ..).trans ((iha _ _ _ _ _ h1).trans (ihb _ _ _ _ _ h))
  | chain a b iha ihb =>
    intro arg count reg st st' h
    simp only [comp] at h
    split at h
    · contradiction
    · rename_i s1 h1; exact (Up.regs ..).trans ((iha _ _ _ _ _ h1).trans (ihb _ _ _ _ _ h))
  | paren a iha =>
    intro arg count reg st st' h
    simp only [comp] at h
    split at h
    · exact iha _ _ _ _ _ h
    · contradiction
  | value v =>
    intro arg count reg st st' h
    simp only [comp] at h
    split at h
    · obtain rfl := Option.some.inj h; exact (Up.regs ..).trans (.asm ..)
    · obtain rfl := Option.some.inj h
      exact (Up.regs ..).trans (.trans (b := { st.regs reg with values := (put (st.regs reg).values v).1 }) (.of rfl rfl (Nat.le_refl _) rfl rfl) (.asm ..))
  | msg x =>
    intro arg count reg st st' h
    simp only [comp] at h
    split at h
    · split at h
      · contradiction
      · rename_i s1 up n hl
        obtain rfl := Option.some.inj h
        exact (Up.regs ..).trans ((look_spec hl).2.1.up.trans (.asm ..))
    · contradiction
  | assign x e ihe =>
    intro arg count reg st st' h
    simp only [comp] at h
    split at h
    · contradiction
    · split at h
      · contradiction
      · rename_i s1 h1
        obtain rfl := Option.some.inj h
        exact (Up.regs ..).trans ((bind_spec _ x).2.1.up.trans ((ihe _ _ _ _ _ h1).trans ((Up.asm ..).trans (.regs ..))))
  | inc x n =>
    intro arg count reg st st' h
    simp only [comp, Option.some.injEq] at h
    cases hi : isInt n with
    | false =>
      simp only [hi, Bool.false_eq_true, if_false] at h
      subst h
      exact (Up.regs ..).trans ((bind_spec _ x).2.1.up.trans ((Up.asm ..).trans ((Up.asm ..).trans ((Up.asm ..).trans ((Up.asm ..).trans (.regs ..))))))
    | true =>
      simp only [hi, if_true] at h
      subst h
      exact (Up.regs ..).trans ((bind_spec _ x).2.1.up.trans ((Up.asm ..).trans ((Up.asm ..).trans ((Up.asm ..).trans ((Up.asm ..).trans ((Up.asm ..).trans (.regs ..)))))))
  | bin op a b iha ihb =>
    intro arg count reg st st' h
    simp only [comp] at h
    split at h
    · contradiction
    · rename_i s1 h1
      split at h
      · contradiction
      · rename_i s2 h2
        obtain rfl := Option.some.inj h
        exact (Up.regs ..).trans ((iha _ _ _ _ _ h1).trans ((ihb _ _ _ _ _ h2).trans (.asm ..)))
  | not a iha =>
    intro arg count reg st st' h
    simp only [comp] at h
    split at h
    · contradiction
    · rename_i s1 h1; obtain rfl := Option.some.inj h; exact (Up.regs ..).trans ((iha _ _ _ _ _ h1).trans (.asm ..))
  | wavy a iha =>
    intro arg count reg st st' h
    simp only [comp] at h
    split at h
    · contradiction
    · rename_i s1 h1; obtain rfl := Option.some.inj h; exact (Up.regs ..).trans ((iha _ _ _ _ _ h1).trans (.asm ..))
  | and a b iha ihb =>
    intro arg count reg st st' h
    simp only [comp] at h
    split at h
    · contradiction
    · rename_i s1 h1
      split at h
      · contradiction
      · rename_i s2 h2
        obtain rfl := Option.some.inj h
        exact (Up.regs ..).trans ((iha _ _ _ _ _ h1).trans ((Up.asm ..).trans ((ihb _ _ _ _ _ h2).trans (.patchB ..))))
  | or a b iha ihb =>
    intro arg count reg st st' h
    simp only [comp] at h
    split at h
    · contradiction
    · rename_i s1 h1
      split at h
      · contradiction
      · rename_i s2 h2
        obtain rfl := Option.some.inj h
        exact (Up.regs ..).trans ((iha _ _ _ _ _ h1).trans ((Up.asm ..).trans ((ihb _ _ _ _ _ h2).trans (.patchB ..))))
  | ifm c b ihc ihb =>
    intro arg count reg st st' h
    simp only [comp] at h
    split at h
    · contradiction
    · rename_i s1 h1
      split at h
      · contradiction
      · rename_i s2 h2
        obtain rfl := Option.some.inj h
        exact (Up.regs ..).trans ((ihc _ _ _ _ _ h1).trans ((Up.asm ..).trans ((ihb _ _ _ _ _ h2).trans ((Up.patchB ..).trans (.regs ..)))))
  | elsifm c b ihc ihb =>
    intro arg count reg st st' h
    simp only [comp] at h
    split at h
    · contradiction
    · rename_i s1 h1
      split at h
      · contradiction
      · rename_i s2 h2
        obtain rfl := Option.some.inj h
        exact (Up.regs ..).trans ((Up.asm ..).trans ((ihc _ _ _ _ _ h1).trans ((Up.asm ..).trans ((ihb _ _ _ _ _ h2).trans ((Up.patchB ..).trans ((Up.patchB ..).trans (.regs ..)))))))
  | elsem b ihb =>
    intro arg count reg st st' h
    simp only [comp] at h
    split at h
    · contradiction
    · rename_i s1 h1
      obtain rfl := Option.some.inj h
      exact (Up.regs ..).trans ((Up.asm ..).trans ((ihb _ _ _ _ _ h1).trans ((Up.patchB ..).trans (.regs ..))))
  | whilem c b ihc ihb =>
    intro arg count reg st st' h
    simp only [comp] at h
    split at h
    · contradiction
    · rename_i s1 h1
      split at h
      · contradiction
      · rename_i s2 h2
        obtain rfl := Option.some.inj h
        exact (Up.regs ..).trans ((ihc _ _ _ _ _ h1).trans ((Up.asm ..).trans ((Up.loop ..).trans ((ihb _ _ _ _ _ h2).trans ((Up.asm ..).trans
          ((Up.patchB ..).trans ((Up.patchAll ..).trans ((Up.patchAll ..).trans ((Up.loop ..).trans (.regs ..))))))))))
  | loopm b ihb =>
    intro arg count reg st st' h
    simp only [comp] at h
    split at h
    · contradiction
    · rename_i s2 h2
      obtain rfl := Option.some.inj h
      exact (Up.regs ..).trans ((Up.loop ..).trans ((ihb _ _ _ _ _ h2).trans ((Up.asm ..).trans
        ((Up.patchAll ..).trans ((Up.patchAll ..).trans ((Up.loop ..).trans (.regs ..)))))))
  | retv a iha =>
    intro arg count reg st st' h
    simp only [comp] at h
    split at h
    · contradiction
    · rename_i s1 h1; obtain rfl := Option.some.inj h; exact (Up.regs ..).trans ((iha _ _ _ _ _ h1).trans (.asm ..))
  | ret0 =>
    intro arg count reg st st' h
    simp only [comp, Option.some.injEq] at h
    subst h
    exact (Up.regs ..).trans ((Up.asm ..).trans (.asm ..))
  | brk =>
    intro arg count reg st st' h
    simp only [comp] at h
    split at h
    · contradiction
    · split at h
      · obtain rfl := Option.some.inj h; exact (Up.regs ..).trans ((Up.asm ..).trans (.loop ..))
      · contradiction
  | cont =>
    intro arg count reg st st' h
    simp only [comp] at h
    split at h
    · contradiction
    · split at h
      · obtain rfl := Option.some.inj h; exact (Up.regs ..).trans ((Up.asm ..).trans (.loop ..))
      · contradiction
  | self =>
    intro arg count reg st st' h
    simp only [comp, Option.some.injEq] at h
    subst h
    exact (Up.regs ..).trans (.asm ..)
  | fn ps b ihb =>
    intro arg count reg st st' h
    simp only [comp] at h
    split at h
    · contradiction
    · rename_i g hb
      have G := ihb _ _ _ _ _ hb
      split at h
      · contradiction
      · rename_i ls us out ho
        obtain rfl := Option.some.inj h
        have fo := G.rest.outer
        have lk := G.rest.linked
        rw [ho] at fo
        obtain ⟨⟨e1, e2⟩, fo'⟩ := List.forall₂_cons.1 fo
        simp only [] at e1 e2
        refine (Up.regs st reg).trans (Up.trans (b := { st.regs reg with upvals := us, outer := out, protos := (st.regs reg).protos ++ [g.close (st.regs reg).next ps], next := g.next }) ?_
          ((Up.asm ..).trans (.captures ..)))
        refine ⟨⟨e2, List.prefix_append _ _, Nat.le_refl _, fun hl => ?_, fo'⟩, List.prefix_refl _⟩
        have := lk ⟨by simp [CSt.open, CSt.new], hl⟩
        unfold CSt.chain at this
        rw [ho, ← e1] at this
        exact this.2
  | call x as ih =>
    intro arg count reg st st' h
    simp only [comp] at h
    split at h
    · split at h
      · contradiction
      · rename_i s1 up n hl
        split at h
        · contradiction
        · rename_i s2 h2
          obtain rfl := Option.some.inj h
          exact (Up.regs ..).trans ((look_spec hl).2.1.up.trans ((Up.asm ..).trans ((Up.asm ..).trans ((ih _ _ _ _ _ h2).trans ((Up.asm ..).trans (.regs ..))))))
    · contradiction
  | anil => intro arg count reg st st' h; simp only [comp, Option.some.injEq] at h; subst h; exact .refl _
  | acons a b iha ihb =>
    intro arg count reg st st' h
    simp only [comp] at h
    split at h
    · contradiction
    · split at h
      · contradiction
      · rename_i s1 h1; exact (iha _ _ _ _ _ h1).trans (ihb _ _ _ _ _ h)

end Potion.Compile
