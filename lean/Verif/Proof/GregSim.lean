import Verif.Proof.GregCode
namespace Potion.Greg

/-! ### Shape of the code -/
section shape
variable (ru : Rule)

theorem comp_err (e : Exp) (k ko n : Nat) : comp ru (.err e k) ko n =
    ((comp ru e (n+2) (n+2)).1 ++ [.goto (n+1), .label (n+2), .err k, .goto ko, .label (n+1)], (comp ru e (n+2) (n+2)).2) := by rw [comp]
theorem comp_alt (l : Exps) (ko n : Nat) : comp ru (.alt l) ko n =
    (.save (n+1) :: (compAlts ru l ko (n+1) (n+1)).1 ++ [.label (n+1)], (compAlts ru l ko (n+1) (n+1)).2) := by rw [comp]
theorem comp_peek (e : Exp) (ko n : Nat) : comp ru (.peek e) ko n =
    (.save (n+1) :: (comp ru e ko (n+1)).1 ++ [.restore (n+1)], (comp ru e ko (n+1)).2) := by rw [comp]
theorem comp_not (e : Exp) (ko n : Nat) : comp ru (.not e) ko n =
    (.save (n+1) :: (comp ru e (n+1) (n+1)).1 ++ [.goto ko, .label (n+1), .restore (n+1)], (comp ru e (n+1) (n+1)).2) := by rw [comp]
theorem comp_opt (e : Exp) (ko n : Nat) : comp ru (.opt e) ko n =
    (.save (n+2) :: (comp ru e (n+2) (n+2)).1 ++ [.goto (n+1), .label (n+2), .restore (n+2), .label (n+1)], (comp ru e (n+2) (n+2)).2) := by rw [comp]
/-- The code of a repetition. -/
def starCode (e : Exp) (again out n : Nat) : List Ins :=
  .label again :: .save out :: (comp ru e out n).1 ++ [.goto again, .label out, .restore out]
theorem comp_star (e : Exp) (ko n : Nat) : comp ru (.star e) ko n = (starCode ru e (n+1) (n+2) (n+2), (comp ru e (n+2) (n+2)).2) := by rw [comp]; rfl
theorem comp_plus (e : Exp) (ko n : Nat) : comp ru (.plus e) ko n =
    ((comp ru e ko (n+2)).1 ++ starCode ru e (n+1) (n+2) (comp ru e ko (n+2)).2, (comp ru e (n+2) (comp ru e ko (n+2)).2).2) := by
  rw [comp]; simp [starCode]
theorem compAlts_one (e : Exp) (ko ok n : Nat) : compAlts ru (.cons e .nil) ko ok n = comp ru e ko n := by rw [compAlts]; rfl
theorem compAlts_more (e e' : Exp) (l : Exps) (ko ok n : Nat) : compAlts ru (.cons e (.cons e' l)) ko ok n =
    ((comp ru e (n+1) (n+1)).1 ++ .goto ok :: .label (n+1) :: .restore ok :: (compAlts ru (.cons e' l) ko ok (comp ru e (n+1) (n+1)).2).1,
      (compAlts ru (.cons e' l) ko ok (comp ru e (n+1) (n+1)).2).2) := by rw [compAlts]; rfl
theorem compSeq_cons (e : Exp) (l : Exps) (ko n : Nat) : compSeq ru (.cons e l) ko n =
    ((comp ru e ko n).1 ++ (compSeq ru l ko (comp ru e ko n).2).1, (compSeq ru l ko (comp ru e ko n).2).2) := by rw [compSeq]

def labels : List Ins → List Nat
  | [] => []
  | .label n :: c => n :: labels c
  | _ :: c => labels c

theorem labels_append (a b : List Ins) : labels (a ++ b) = labels a ++ labels b := by
  induction a with
  | nil => rfl
  | cons i a ih => cases i <;> simp [labels, ih]

/-- Labels are new and different. -/
def Fresh (c : List Ins) (n n' : Nat) : Prop := n ≤ n' ∧ (labels c).Nodup ∧ ∀ k ∈ labels c, n < k ∧ k ≤ n'

theorem Fresh.none {c n} (h : labels c = []) : Fresh c n n := ⟨Nat.le_refl _, by simp [h], by simp [h]⟩

mutual
theorem comp_fresh : ∀ (e : Exp) (ko n : Nat), Fresh (comp ru e ko n).1 n (comp ru e ko n).2
  | .any, _, _ => by rw [comp]; exact .none rfl
  | .chr _, _, _ => by rw [comp]; exact .none rfl
  | .str _, _, _ => by rw [comp]; exact .none rfl
  | .cls _, _, _ => by rw [comp]; exact .none rfl
  | .name _ none, _, _ => by rw [comp]; exact .none rfl
  | .name _ (some _), _, _ => by rw [comp]; exact .none rfl
  | .act _, _, _ => by rw [comp]; exact .none rfl
  | .pred _, _, _ => by rw [comp]; exact .none rfl
  | .open, _, _ => by rw [comp]; exact .none rfl
  | .close, _, _ => by rw [comp]; exact .none rfl
  | .err e k, ko, n => by
    obtain ⟨h1, h2, h3⟩ := comp_fresh e (n+2) (n+2)
    rw [comp_err]
    refine ⟨by dsimp only; omega, ?_, ?_⟩
    · simp only [labels_append, labels]
      rw [List.nodup_append]
      refine ⟨h2, by simp, ?_⟩
      intro a ha b hb
      have := h3 a ha
      simp at hb; omega
    · simp only [labels_append, labels]
      intro k hk
      rcases List.mem_append.1 hk with hk | hk
      · have := h3 k hk; omega
      · simp at hk; omega
  | .alt l, ko, n => by
    obtain ⟨h1, h2, h3⟩ := compAlts_fresh l ko (n+1) (n+1)
    rw [comp_alt]
    refine ⟨by dsimp only; omega, ?_, ?_⟩
    · simp only [List.cons_append, labels_append, labels]
      rw [List.nodup_append]
      refine ⟨h2, by simp, ?_⟩
      intro a ha b hb
      have := h3 a ha
      simp at hb; omega
    · simp only [List.cons_append, labels_append, labels]
      intro k hk
      rcases List.mem_append.1 hk with hk | hk
      · have := h3 k hk; omega
      · simp at hk; omega
  | .seq l, ko, n => by rw [comp]; exact compSeq_fresh l ko n
  | .peek e, ko, n => by
    obtain ⟨h1, h2, h3⟩ := comp_fresh e ko (n+1)
    rw [comp_peek]
    refine ⟨by dsimp only; omega, ?_, ?_⟩
    · simpa only [List.cons_append, labels_append, labels, List.append_nil] using h2
    · simp only [List.cons_append, labels_append, labels, List.append_nil]
      intro k hk
      have := h3 k hk; omega
  | .not e, ko, n => by
    obtain ⟨h1, h2, h3⟩ := comp_fresh e (n+1) (n+1)
    rw [comp_not]
    refine ⟨by dsimp only; omega, ?_, ?_⟩
    · simp only [List.cons_append, labels_append, labels]
      rw [List.nodup_append]
      refine ⟨h2, by simp, ?_⟩
      intro a ha b hb
      have := h3 a ha
      simp at hb; omega
    · simp only [List.cons_append, labels_append, labels]
      intro k hk
      rcases List.mem_append.1 hk with hk | hk
      · have := h3 k hk; omega
      · simp at hk; omega
  | .opt e, ko, n => by
    obtain ⟨h1, h2, h3⟩ := comp_fresh e (n+2) (n+2)
    rw [comp_opt]
    refine ⟨by dsimp only; omega, ?_, ?_⟩
    · simp only [List.cons_append, labels_append, labels]
      rw [List.nodup_append]
      refine ⟨h2, by simp, ?_⟩
      intro a ha b hb
      have := h3 a ha
      simp at hb; omega
    · simp only [List.cons_append, labels_append, labels]
      intro k hk
      rcases List.mem_append.1 hk with hk | hk
      · have := h3 k hk; omega
      · simp at hk; omega
  | .star e, ko, n => by
    obtain ⟨h1, h2, h3⟩ := comp_fresh e (n+2) (n+2)
    rw [comp_star]
    refine ⟨by dsimp only; omega, ?_, ?_⟩
    · simp only [starCode, List.cons_append, labels_append, labels]
      rw [List.nodup_cons, List.nodup_append]
      refine ⟨?_, h2, by simp, ?_⟩
      · intro hk
        rcases List.mem_append.1 hk with hk | hk
        · have := h3 _ hk; omega
        · simp at hk
      intro a ha b hb
      have := h3 a ha
      simp at hb; omega
    · simp only [starCode, List.cons_append, labels_append, labels]
      intro k hk
      rcases List.mem_cons.1 hk with hk | hk
      · omega
      rcases List.mem_append.1 hk with hk | hk
      · have := h3 k hk; omega
      · simp at hk; omega
  | .plus e, ko, n => by
    obtain ⟨h1, h2, h3⟩ := comp_fresh e ko (n+2)
    obtain ⟨g1, g2, g3⟩ := comp_fresh e (n+2) (comp ru e ko (n+2)).2
    rw [comp_plus]
    refine ⟨by dsimp only; omega, ?_, ?_⟩
    · simp only [starCode, List.cons_append, labels_append, labels]
      rw [List.nodup_append]
      refine ⟨h2, ?_, ?_⟩
      · rw [List.nodup_cons, List.nodup_append]
        refine ⟨?_, g2, by simp, ?_⟩
        · intro hk
          rcases List.mem_append.1 hk with hk | hk
          · have := g3 _ hk; omega
          · simp at hk
        intro a ha b hb
        have := g3 a ha
        simp at hb; omega
      intro a ha b hb
      have := h3 a ha
      rcases List.mem_cons.1 hb with hb | hb
      · omega
      rcases List.mem_append.1 hb with hb | hb
      · have := g3 b hb; omega
      · simp at hb; omega
    · simp only [starCode, List.cons_append, labels_append, labels]
      intro k hk
      rcases List.mem_append.1 hk with hk | hk
      · have := h3 k hk; omega
      rcases List.mem_cons.1 hk with hk | hk
      · omega
      rcases List.mem_append.1 hk with hk | hk
      · have := g3 k hk; omega
      · simp at hk; omega
theorem compAlts_fresh : ∀ (l : Exps) (ko ok n : Nat), Fresh (compAlts ru l ko ok n).1 n (compAlts ru l ko ok n).2
  | .nil, _, _, _ => by rw [compAlts]; exact .none rfl
  | .cons e .nil, ko, ok, n => by rw [compAlts_one]; exact comp_fresh e ko n
  | .cons e (.cons e' l), ko, ok, n => by
    obtain ⟨h1, h2, h3⟩ := comp_fresh e (n+1) (n+1)
    obtain ⟨g1, g2, g3⟩ := compAlts_fresh (.cons e' l) ko ok (comp ru e (n+1) (n+1)).2
    rw [compAlts_more]
    refine ⟨by dsimp only; omega, ?_, ?_⟩
    · simp only [labels_append, labels]
      rw [List.nodup_append]
      refine ⟨h2, ?_, ?_⟩
      · rw [List.nodup_cons]
        refine ⟨?_, g2⟩
        intro hk
        have := g3 _ hk; omega
      intro a ha b hb
      have := h3 a ha
      rcases List.mem_cons.1 hb with hb | hb
      · omega
      · have := g3 b hb; omega
    · simp only [labels_append, labels]
      intro k hk
      rcases List.mem_append.1 hk with hk | hk
      · have := h3 k hk; omega
      rcases List.mem_cons.1 hk with hk | hk
      · omega
      · have := g3 k hk; omega
theorem compSeq_fresh : ∀ (l : Exps) (ko n : Nat), Fresh (compSeq ru l ko n).1 n (compSeq ru l ko n).2
  | .nil, _, _ => by rw [compSeq]; exact .none rfl
  | .cons e l, ko, n => by
    obtain ⟨h1, h2, h3⟩ := comp_fresh e ko n
    obtain ⟨g1, g2, g3⟩ := compSeq_fresh l ko (comp ru e ko n).2
    rw [compSeq_cons]
    refine ⟨by dsimp only; omega, ?_, ?_⟩
    · simp only [labels_append]
      rw [List.nodup_append]
      refine ⟨h2, g2, ?_⟩
      intro a ha b hb
      have := h3 a ha
      have := g3 b hb; omega
    · simp only [labels_append]
      intro k hk
      rcases List.mem_append.1 hk with hk | hk
      · have := h3 k hk; omega
      · have := g3 k hk; omega
end
end shape

/-- Every label is in one place. -/
def Uniq (fn : List Ins) : Prop := (labels fn).Nodup

theorem label_mem : ∀ {fn : List Ins} {k n : Nat}, fn[k]? = some (Ins.label n) → n ∈ labels fn := by
  intro fn
  induction fn with
  | nil => intro k n h; simp at h
  | cons i fn ih =>
    intro k n h
    cases k with
    | zero => simp at h; subst h; simp [labels]
    | succ k =>
      have := ih (k := k) (by simpa using h)
      cases i <;> simp [labels, this]

theorem labelAt_ok : ∀ {fn : List Ins} {k n : Nat}, Uniq fn → fn[k]? = some (Ins.label n) → labelAt n fn = some k := by
  intro fn
  induction fn with
  | nil => intro k n _ h; simp at h
  | cons i fn ih =>
    intro k n hu h
    cases k with
    | zero => simp at h; subst h; simp [labelAt]
    | succ k =>
      have h' : fn[k]? = some (Ins.label n) := by simpa using h
      have hm := label_mem h'
      cases i
      case label j =>
        simp only [Uniq, labels, List.nodup_cons] at hu
        rw [labelAt, if_neg (fun e => hu.1 (by rw [e]; exact hm)), ih hu.2 h']; rfl
      all_goals simp only [Uniq, labels] at hu; rw [labelAt, ih hu h'] <;> first | rfl | simp

/-- The code `c` is at position `k`. -/
def At (fn : List Ins) (k : Nat) (c : List Ins) : Prop := ∀ i x, c[i]? = some x → fn[k+i]? = some x

theorem At.left {fn k a b} (h : At fn k (a ++ b)) : At fn k a := fun i x hx => h i x (by
  rw [List.getElem?_append_left (List.getElem?_eq_some_iff.1 hx).1]; exact hx)
theorem At.right {fn k a b} (h : At fn k (a ++ b)) : At fn (k + a.length) b := fun i x hx => by
  rw [Nat.add_assoc]
  exact h _ x (by rw [List.getElem?_append_right (by omega), show a.length + i - a.length = i by omega]; exact hx)
theorem At.head {fn k x c} (h : At fn k (x :: c)) : fn[k]? = some x := h 0 x rfl
theorem At.tail {fn k x c} (h : At fn k (x :: c)) : At fn (k+1) c := fun i y hy => by
  rw [show k + 1 + i = k + (i + 1) by omega]; exact h (i+1) y (by simpa using hy)

/-! ### Running -/
section run
variable (prog : List (List Ins)) (P : Nat → List Byte → Bool) (inp : List Byte)

theorem exec_mono : ∀ (f : Nat) (fn : List Ins) (pc : Nat) (loc : Nat → Nat × Nat) (g : G) (R : Bool × G),
    exec prog P inp f fn pc loc g = some R → exec prog P inp (f+1) fn pc loc g = some R := by
  intro f
  induction f with
  | zero => intro fn pc loc g R h; simp [exec] at h
  | succ f ih =>
    intro fn pc loc g R h
    have hj : ∀ ko g, (match labelAt ko fn with | some k => exec prog P inp f fn k loc g | none => none) = some R →
        (match labelAt ko fn with | some k => exec prog P inp (f+1) fn k loc g | none => none) = some R := by
      intro ko g h
      cases hl : labelAt ko fn with
      | none => rw [hl] at h; simp at h
      | some k => rw [hl] at h; exact ih _ _ _ _ _ h
    have ht : ∀ ko r, (match r with
        | some (true, g) => exec prog P inp f fn (pc+1) loc g
        | some (false, g) => (match labelAt ko fn with | some k => exec prog P inp f fn k loc g | none => none)
        | none => none) = some R → (match r with
        | some (true, g) => exec prog P inp (f+1) fn (pc+1) loc g
        | some (false, g) => (match labelAt ko fn with | some k => exec prog P inp (f+1) fn k loc g | none => none)
        | none => none) = some R := by
      intro ko r h
      match r, h with
      | some (true, g), h => exact ih _ _ _ _ _ h
      | some (false, g), h => exact hj _ _ h
    rw [exec] at h ⊢
    dsimp only at h ⊢
    cases hi : fn[pc]? with
    | none => rw [hi] at h; simp at h
    | some i =>
      rw [hi] at h
      cases i
      case dot => exact ht _ _ h
      case chr => exact ht _ _ h
      case str => exact ht _ _ h
      case cls => exact ht _ _ h
      case call r ko =>
        dsimp only at h ⊢
        cases hp : prog[r]? with
        | none => rw [hp] at h; simp at h
        | some fn' =>
          rw [hp] at h
          dsimp only at h ⊢
          cases he : exec prog P inp f fn' 0 (fun _ => (0, 0)) g with
          | none => rw [he] at h; simp at h
          | some r => rw [he] at h; rw [ih _ _ _ _ _ he]; exact ht ko (some r) h
      case yydo t =>
        dsimp only at h ⊢
        cases hd : yyDo t g with
        | none => rw [hd] at h; simp at h
        | some g' => rw [hd] at h; exact ih _ _ _ _ _ h
      case yyact a nv =>
        dsimp only at h ⊢
        cases hd : yyDo (.act a nv g.b g.e) g with
        | none => rw [hd] at h; simp at h
        | some g' => rw [hd] at h; exact ih _ _ _ _ _ h
      case pred p ko =>
        dsimp only at h ⊢
        cases hd : yyText g.buf g.buflen g.textlen g.b g.e with
        | none => rw [hd] at h; simp at h
        | some x => rw [hd] at h; exact ht ko (some (P p x.1, { g with text := x.1, textlen := x.2 })) h
      case «open» =>
        dsimp only at h ⊢
        cases hd : yyText g.buf g.buflen g.textlen g.b g.e with
        | none => rw [hd] at h; simp at h
        | some x => rw [hd] at h; exact ih _ _ _ _ _ h
      case close =>
        dsimp only at h ⊢
        cases hd : yyText g.buf g.buflen g.textlen g.b g.e with
        | none => rw [hd] at h; simp at h
        | some x => rw [hd] at h; exact ih _ _ _ _ _ h
      case err =>
        dsimp only at h ⊢
        cases hd : yyText g.buf g.buflen g.textlen g.b g.e with
        | none => rw [hd] at h; simp at h
        | some x => rw [hd] at h; exact ih _ _ _ _ _ h
      case save => exact ih _ _ _ _ _ h
      case restore => exact ih _ _ _ _ _ h
      case label => exact ih _ _ _ _ _ h
      case goto => exact hj _ _ h
      case ret => exact h

theorem exec_le {f f' : Nat} (hf : f ≤ f') {fn pc loc g R} (h : exec prog P inp f fn pc loc g = some R) :
    exec prog P inp f' fn pc loc g = some R := by
  induction hf with
  | refl => exact h
  | step _ ih => exact exec_mono _ _ _ _ _ _ _ _ _ ih

/-- From one place in a function the code gets to another. -/
structure Go (fn : List Ins) (pc : Nat) (loc : Nat → Nat × Nat) (g : G) (pc' : Nat) (loc' : Nat → Nat × Nat) (g' : G) : Prop where
  fwd : ∀ f R, exec prog P inp f fn pc' loc' g' = some R → ∃ f', exec prog P inp f' fn pc loc g = some R
  back : ∀ f R, exec prog P inp f fn pc loc g = some R → exec prog P inp f fn pc' loc' g' = some R

variable {prog P inp}

theorem Go.refl {fn pc loc g} : Go prog P inp fn pc loc g pc loc g := ⟨fun f _ h => ⟨f, h⟩, fun _ _ h => h⟩
theorem Go.trans {fn a l g a' l' g' a'' l'' g''} (h : Go prog P inp fn a l g a' l' g') (h' : Go prog P inp fn a' l' g' a'' l'' g'') :
    Go prog P inp fn a l g a'' l'' g'' := ⟨fun f R hR => by
  obtain ⟨f1, h1⟩ := h'.fwd f R hR
  exact h.fwd f1 R h1, fun f R hR => h'.back f R (h.back f R hR)⟩

theorem Go.step {fn a l g a' l' g'} (h : ∀ f, exec prog P inp (f+1) fn a l g = exec prog P inp f fn a' l' g') : Go prog P inp fn a l g a' l' g' :=
  ⟨fun f R hR => ⟨f+1, by rw [h, hR]⟩, fun f R hR => by
    cases f with
    | zero => simp [exec] at hR
    | succ f => rw [h] at hR; exact exec_mono _ _ _ _ _ _ _ _ _ hR⟩

theorem go_save {fn pc n loc g} (h : fn[pc]? = some (.save n)) :
    Go prog P inp fn pc loc g (pc+1) (fun k => if k = n then (g.pos, g.thunkpos) else loc k) g := .step fun f => by rw [exec]; simp only [h]
theorem go_restore {fn pc n loc g} (h : fn[pc]? = some (.restore n)) :
    Go prog P inp fn pc loc g (pc+1) loc { g with pos := (loc n).1, thunkpos := (loc n).2 } := .step fun f => by rw [exec]; simp only [h]
theorem go_label {fn pc n loc g} (h : fn[pc]? = some (.label n)) : Go prog P inp fn pc loc g (pc+1) loc g :=
  .step fun f => by rw [exec]; simp only [h]
theorem go_goto {fn pc n q loc g} (hu : Uniq fn) (h : fn[pc]? = some (.goto n)) (hq : fn[q]? = some (.label n)) : Go prog P inp fn pc loc g q loc g :=
  .step fun f => by rw [exec]; simp only [h, labelAt_ok hu hq]
theorem go_err {fn pc k loc g t len} (h : fn[pc]? = some (.err k)) (ht : yyText g.buf g.buflen g.textlen g.b g.e = some (t, len)) :
    Go prog P inp fn pc loc g (pc+1) loc { g with text := t, textlen := len, errs := g.errs ++ [k] } :=
  .step fun f => by rw [exec]; simp only [h, ht]
theorem go_open {fn pc loc g t len} (h : fn[pc]? = some .open) (ht : yyText g.buf g.buflen g.textlen g.b g.e = some (t, len)) :
    Go prog P inp fn pc loc g (pc+1) loc { g with text := t, textlen := len, b := g.pos } :=
  .step fun f => by rw [exec]; simp only [h, ht]
theorem go_close {fn pc loc g t len} (h : fn[pc]? = some .close) (ht : yyText g.buf g.buflen g.textlen g.b g.e = some (t, len)) :
    Go prog P inp fn pc loc g (pc+1) loc { g with text := t, textlen := len, e := g.pos } :=
  .step fun f => by rw [exec]; simp only [h, ht]
theorem go_do {fn pc t loc g g'} (h : fn[pc]? = some (.yydo t)) (hd : yyDo t g = some g') : Go prog P inp fn pc loc g (pc+1) loc g' :=
  .step fun f => by rw [exec]; simp only [h, hd]
theorem go_act {fn pc a nv loc g g'} (h : fn[pc]? = some (.yyact a nv)) (hd : yyDo (.act a nv g.b g.e) g = some g') :
    Go prog P inp fn pc loc g (pc+1) loc g' :=
  .step fun f => by rw [exec]; simp only [h, hd]

theorem exec_det {f f' fn pc loc g R R'} (h : exec prog P inp f fn pc loc g = some R) (h' : exec prog P inp f' fn pc loc g = some R') : R = R' := by
  have h1 := exec_le prog P inp (Nat.le_max_left f f') h
  rw [exec_le prog P inp (Nat.le_max_right f f') h'] at h1
  exact (Option.some.inj h1).symm

/-- A statement `if (!test) goto ko`. -/
inductive IsTest (prog : List (List Ins)) (P : Nat → List Byte → Bool) (inp : List Byte) (g : G) : Ins → Nat → Option (Bool × G) → Prop
  | dot {ko} : IsTest prog P inp g (.dot ko) ko (matchDot inp g)
  | chr {c ko} : IsTest prog P inp g (.chr c ko) ko (matchChar inp c g)
  | str {s ko} : IsTest prog P inp g (.str s ko) ko (matchString inp g.pos s g)
  | cls {t ko} : IsTest prog P inp g (.cls t ko) ko (matchClass inp t g)
  | pred {p ko t len} : yyText g.buf g.buflen g.textlen g.b g.e = some (t, len) →
      IsTest prog P inp g (.pred p ko) ko (some (P p t, { g with text := t, textlen := len }))
  | call {r ko fn' f b g'} : prog[r]? = some fn' → exec prog P inp f fn' 0 (fun _ => (0, 0)) g = some (b, g') →
      IsTest prog P inp g (.call r ko) ko (some (b, g'))

theorem go_test {fn pc i ko loc g g'} (h : fn[pc]? = some i) (ht : IsTest prog P inp g i ko (some (true, g'))) :
    Go prog P inp fn pc loc g (pc+1) loc g' := by
  generalize hr : (some (true, g') : Option (Bool × G)) = r at ht
  cases ht with
  | call h1 h2 =>
    rename_i r' fn' f2 b g2
    cases hr
    refine ⟨fun f R hR => ⟨max f f2 + 1, ?_⟩, fun f R hR => ?_⟩
    · rw [exec]
      simp only [h, h1, exec_le prog P inp (Nat.le_max_right f f2) h2]
      exact exec_le prog P inp (Nat.le_max_left f f2) hR
    · cases f with
      | zero => simp [exec] at hR
      | succ f =>
        rw [exec] at hR
        simp only [h, h1] at hR
        cases he : exec prog P inp f fn' 0 (fun _ => (0, 0)) g with
        | none => rw [he] at hR; simp at hR
        | some x =>
          rw [he, exec_det he h2] at hR
          exact exec_mono _ _ _ _ _ _ _ _ _ hR
  | pred h1 => exact .step fun f => by rw [exec]; simp only [h, h1, ← hr]
  | _ => exact .step fun f => by rw [exec]; simp only [h, ← hr]

theorem go_fail {fn pc i ko q loc g g'} (hu : Uniq fn) (h : fn[pc]? = some i) (hq : fn[q]? = some (.label ko))
    (ht : IsTest prog P inp g i ko (some (false, g'))) : Go prog P inp fn pc loc g q loc g' := by
  generalize hr : (some (false, g') : Option (Bool × G)) = r at ht
  cases ht with
  | call h1 h2 =>
    rename_i r' fn' f2 b g2
    cases hr
    refine ⟨fun f R hR => ⟨max f f2 + 1, ?_⟩, fun f R hR => ?_⟩
    · rw [exec]
      simp only [h, h1, exec_le prog P inp (Nat.le_max_right f f2) h2, labelAt_ok hu hq]
      exact exec_le prog P inp (Nat.le_max_left f f2) hR
    · cases f with
      | zero => simp [exec] at hR
      | succ f =>
        rw [exec] at hR
        simp only [h, h1] at hR
        cases he : exec prog P inp f fn' 0 (fun _ => (0, 0)) g with
        | none => rw [he] at hR; simp at hR
        | some x =>
          rw [he, exec_det he h2] at hR
          simp only [labelAt_ok hu hq] at hR
          exact exec_mono _ _ _ _ _ _ _ _ _ hR
  | pred h1 => exact .step fun f => by rw [exec]; simp only [h, h1, ← hr, labelAt_ok hu hq]
  | _ => exact .step fun f => by rw [exec]; simp only [h, ← hr, labelAt_ok hu hq]

end run
end Potion.Greg
