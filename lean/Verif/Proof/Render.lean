import Verif.Spec.Render
/-! `render` writes texts of programs. -/
namespace Potion.Spec
open Potion Potion.Dec

theorem nameOk_sound {x} (h : nameOk x = true) : IsName x := by
  simp only [nameOk, Bool.and_eq_true, List.all_eq_true, bne_iff_ne, Bool.not_eq_true'] at h
  obtain ⟨⟨h1, h2⟩, h3⟩ := h
  refine ⟨?_, h2, ?_⟩
  · cases x with
    | nil => simp at h1
    | cons c r =>
      simp only [Bool.and_eq_true, List.all_eq_true, Bool.or_eq_true] at h1
      exact ⟨c, r, rfl, h1⟩
  · rintro r rfl
    have : (chars "extern").isPrefixOf (chars "extern" ++ r) = true := by
      rw [List.isPrefixOf_iff_prefix]; exact List.prefix_append _ _
    rw [this] at h3; simp at h3

theorem varOk_sound {x} (h : varOk x = true) : IsVar x := by
  simp only [varOk, Bool.and_eq_true, List.all_eq_true, bne_iff_ne] at h
  exact ⟨nameOk_sound h.1, h.2⟩

theorem says_down {p s ℓ m} (h : Says (.ex m p) s) (hm : m ≤ 10) (hl : ℓ ≤ m) : Says (.ex ℓ p) s := by
  obtain ⟨k, rfl⟩ := Nat.exists_eq_add_of_le hl
  induction k with
  | zero => exact h
  | succ k ih => exact ih (.up (by omega) h) (by omega) (by omega)

theorem blank_one : Blank (chars " ") := by intro c h; revert c; decide
theorem blank_none : Blank [] := by intro c h; simp at h
theorem gap_one : Gap false (chars " ") := .char (by decide) .nil

theorem says_list {p s} (h : p = .nop ∧ s = [] ∨ Says (.stmts p) s) : Says (.list p) (inList s) := by
  rcases h with ⟨rfl, rfl⟩ | h
  · exact Says.list0 .nil
  · exact Says.list (g := []) (w := []) .nil h (.inl blank_none)
theorem says_block {p s} (h : p = .nop ∧ s = [] ∨ Says (.stmts p) s) : Says (.block p) (inBlock s) := by
  rcases h with ⟨rfl, rfl⟩ | h
  · exact Says.block0 gap_one
  · exact Says.block (g := []) .nil h (.inl blank_one)

theorem says_between {o a b p s s'} (hc : Combines o a b p) (ha : Says (.ex o.level a) s) (hb : Says (.ex (o.level + 1) b) s') :
    Says (.ex o.level p) (between s (spelling o) s') :=
  .bin hc ha blank_one (by cases o <;> decide) (fun _ => by decide) gap_one (by decide) hb

theorem says_digits (n : Nat) : Says (.ex 10 (.int n)) ((natDigits (n + 1) n).map digitChar) := by
  obtain ⟨h1, h2, _, h4, h5, h6, _⟩ := natDigits_spec (n + 1) n (by
    calc n < 2 ^ n := Nat.lt_two_pow_self
      _ ≤ 10 ^ n := Nat.pow_le_pow_left (by omega) n
      _ ≤ 10 ^ (n + 1) := Nat.pow_le_pow_right (by omega) (by omega)) (by omega)
  have := Says.int h1 (by
    rcases Nat.eq_zero_or_pos n with h | h
    · exact .inl (h6 h)
    · have := h5 h
      rcases hx : natDigits (n + 1) n with _ | ⟨d, r⟩
      · exact absurd hx h4
      · rw [hx] at this; exact .inr ⟨d, r, rfl, by simpa using this⟩)
  rwa [h2] at this

theorem level_le (p : Prog) : p.level ≤ 10 := by
  cases p with
  | arith op => cases op <;> simp [Prog.level, Op.bin, Bin.level]
  | rel r => cases r <;> simp [Prog.level, Rel.bin, Bin.level]
  | eq n => cases n <;> simp [Prog.level, Bin.level]
  | _ => simp [Prog.level, Bin.level]

theorem gap_true : Gap true (chars " ") := .char (by decide) .nil

theorem one (p : Prog) {s} (h : Says (.ex p.level p) s) : p = .nop ∧ s = [] ∨ Says (.stmts p) s :=
  .inr (.one (.stmt (says_down h (level_le p) (Nat.zero_le _))))

theorem says_names : ∀ {ps : List Ident}, ps ≠ [] → ps.all nameOk = true → Says (.names ps) (commas ps)
  | [x], _, h => by
    simp only [List.all_cons, List.all_nil, Bool.and_true] at h
    exact .name (nameOk_sound h)
  | x :: y :: r, _, h => by
    simp only [List.all_cons, Bool.and_eq_true] at h
    exact .names (w := []) (nameOk_sound h.1) (.inl blank_none) ⟨_, _, rfl, .inl rfl, gap_true⟩
      (says_names (ps := y :: r) (by simp) (by simp [h.2]))

theorem says_params {ps : List Ident} (h : ps.all nameOk = true) : Says (.params ps) (inList (commas ps)) := by
  cases ps with
  | nil => exact Says.params0 .nil
  | cons x r => exact Says.params (g := []) (w := []) .nil (says_names (by simp) h) (.inl blank_none)

mutual
theorem render_ex : ∀ (p : Prog), grouped false p = true → Says (.ex p.level p) (render p)
  | .int i, h => by
    simp only [grouped, decide_eq_true_eq] at h
    obtain ⟨n, rfl⟩ := Int.eq_ofNat_of_zero_le h
    exact says_digits n
  | .bool true, _ => .true
  | .bool false, _ => .false
  | .nil, _ => .nil
  | .brk, _ => .brk
  | .cont, _ => .cont
  | .retNil, _ => .retNil
  | .var x, h => .var (varOk_sound h)
  | .incr true _ x, h => .pre (varOk_sound h) blank_none
  | .incr false _ x, h => .post (varOk_sound h) blank_none
  | .assign x e, h => by
    simp only [grouped, Bool.and_eq_true, decide_eq_true_eq] at h
    exact .assign (nameOk_sound h.1.1) blank_one gap_one (says_down (render_ex e h.1.2) (level_le e) h.2)
  | .arith op a b, h => by
    simp only [grouped, Bool.and_eq_true, decide_eq_true_eq] at h
    exact says_between .arith (says_down (render_ex a h.1.1.1) (level_le a) h.1.2) (says_down (render_ex b h.1.1.2) (level_le b) h.2)
  | .rel r a b, h => by
    simp only [grouped, Bool.and_eq_true, decide_eq_true_eq] at h
    exact says_between .rel (says_down (render_ex a h.1.1.1) (level_le a) h.1.2) (says_down (render_ex b h.1.1.2) (level_le b) h.2)
  | .eq false a b, h => by
    simp only [grouped, Bool.and_eq_true, decide_eq_true_eq] at h
    exact says_between (o := .eq) .eq (says_down (render_ex a h.1.1.1) (level_le a) h.1.2) (says_down (render_ex b h.1.1.2) (level_le b) h.2)
  | .eq true a b, h => by
    simp only [grouped, Bool.and_eq_true, decide_eq_true_eq] at h
    exact says_between (o := .neq) .ne (says_down (render_ex a h.1.1.1) (level_le a) h.1.2) (says_down (render_ex b h.1.1.2) (level_le b) h.2)
  | .and a b, h => by
    simp only [grouped, Bool.and_eq_true, decide_eq_true_eq] at h
    exact says_between (o := .and) .and (says_down (render_ex a h.1.1) (level_le a) (Nat.zero_le _)) (says_down (render_ex b h.1.2) (level_le b) h.2)
  | .or a b, h => by
    simp only [grouped, Bool.and_eq_true, decide_eq_true_eq] at h
    exact says_between (o := .or) .or (says_down (render_ex a h.1.1) (level_le a) (Nat.zero_le _)) (says_down (render_ex b h.1.2) (level_le b) h.2)
  | .not a, h => by
    simp only [grouped, Bool.and_eq_true, decide_eq_true_eq] at h
    exact .not (by simp) gap_one (fun _ => by decide) (h.2 ▸ render_ex a h.1)
  | .bitnot a, h => by
    simp only [grouped, Bool.and_eq_true, decide_eq_true_eq] at h
    exact .bitnot .nil (h.2 ▸ render_ex a h.1)
  | .group a, h => .group (says_list (render_st a h))
  | .loop a, h => .loop blank_none (says_block (render_st a h))
  | .ret a, h => .ret blank_one (says_list (render_st a h))
  | .nop, h => by simp [grouped] at h
  | .seq .., h => by simp [grouped] at h
  | .while c a, h => by
    simp only [grouped, Bool.and_eq_true] at h
    exact .while blank_one (says_list (render_st c h.1)) blank_none (says_block (render_st a h.2))
  | .ifs c a r, h => by
    simp only [grouped, Bool.and_eq_true] at h
    exact .ifs blank_one (says_list (render_st c h.1.1)) blank_none (says_block (render_st a h.1.2)) (render_tail r h.2)
  | .fn ps b, h => by
    simp only [grouped, Bool.and_eq_true] at h
    exact .fn (says_params h.1) blank_none (says_block (render_st b h.2))
  | .call x as, h => by
    simp only [grouped, Bool.and_eq_true] at h
    refine .call (varOk_sound h.1) blank_none ?_
    cases as with
    | nil => exact Says.args0 .nil
    | cons a r => exact Says.args (g := []) (w := []) .nil (render_items a r h.2) (.inl blank_none)
termination_by p => (sizeOf p, 0)
theorem render_items : ∀ (a : Prog) (r : Args), groupedArgs (.cons a r) = true → Says (.items (.cons a r)) (renderArgs (.cons a r))
  | a, .nil, h => by
    simp only [groupedArgs, Bool.and_eq_true] at h
    exact .item (says_down (render_ex a h.1) (level_le a) (Nat.zero_le _))
  | a, .cons b r, h => by
    rw [groupedArgs, Bool.and_eq_true] at h
    exact .items (w := []) (says_down (render_ex a h.1) (level_le a) (Nat.zero_le _)) (.inl blank_none)
      ⟨_, _, rfl, .inl rfl, gap_true⟩ (render_items b r h.2)
termination_by a r => (1 + sizeOf a + sizeOf r, 0)
theorem render_st : ∀ (p : Prog), grouped true p = true → p = .nop ∧ render p = [] ∨ Says (.stmts p) (render p)
  | .nop, _ => .inl ⟨rfl, rfl⟩
  | .seq a b, h => by
    simp only [grouped, Bool.true_and, Bool.and_eq_true, Bool.not_eq_true'] at h
    rcases render_st b h.1.2 with ⟨rfl, _⟩ | hb
    · simp [isNop] at h
    · exact .inr (.more (w := []) (.stmt (says_down (render_ex a h.1.1) (level_le a) (Nat.zero_le _))) (.inl blank_none)
        ⟨_, _, rfl, .inl rfl, gap_true⟩ hb)
  | .int i, h => one (.int i) (render_ex _ h)
  | .bool b, h => one (.bool b) (render_ex _ h)
  | .nil, h => one .nil (render_ex _ h)
  | .brk, h => one .brk (render_ex _ h)
  | .cont, h => one .cont (render_ex _ h)
  | .retNil, h => one .retNil (render_ex _ h)
  | .var x, h => one (.var x) (render_ex _ h)
  | .incr pre up x, h => one (.incr pre up x) (render_ex _ h)
  | .assign x e, h => one (.assign x e) (render_ex _ h)
  | .arith op a b, h => one (.arith op a b) (render_ex _ h)
  | .rel r a b, h => one (.rel r a b) (render_ex _ h)
  | .eq n a b, h => one (.eq n a b) (render_ex _ h)
  | .and a b, h => one (.and a b) (render_ex _ h)
  | .or a b, h => one (.or a b) (render_ex _ h)
  | .not a, h => one (.not a) (render_ex _ h)
  | .bitnot a, h => one (.bitnot a) (render_ex _ h)
  | .group a, h => one (.group a) (render_ex _ h)
  | .loop a, h => one (.loop a) (render_ex _ h)
  | .ret a, h => one (.ret a) (render_ex _ h)
  | .while c a, h => one (.while c a) (render_ex _ h)
  | .ifs c a r, h => one (.ifs c a r) (render_ex _ h)
  | .fn ps b, h => one (.fn ps b) (render_ex _ h)
  | .call x as, h => one (.call x as) (render_ex _ h)
termination_by p => (sizeOf p, 1)
theorem render_tail : ∀ (r : Else), groupedTail r = true → Says (.tail r) (renderTail r)
  | .none, _ => .endif
  | .elsif c a r, h => by
    simp only [groupedTail, Bool.and_eq_true] at h
    exact .sameLine blank_one (by decide) <| .elsif blank_one (says_list (render_st c h.1.1)) blank_none (says_block (render_st a h.1.2)) (render_tail r h.2)
  | .els a, h => .sameLine blank_one (by decide) <| .els blank_none (says_block (render_st a h))
termination_by r => (sizeOf r, 0)
end

end Potion.Spec
