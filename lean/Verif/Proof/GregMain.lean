import Verif.Proof.GregRun
namespace Potion.Greg

section
variable {gr : Grammar} {prog : List (List Ins)} {P : Nat → List Byte → Bool} {inp : List Byte}

theorem Out.mono {fn} {S S' : Nat → Prop} {pc loc g okpc q res} (hS : ∀ k, S k → S' k) (h : Out gr prog P inp fn S pc loc g okpc q res) :
    Out gr prog P inp fn S' pc loc g okpc q res := by
  cases res with
  | ok p evs m =>
    obtain ⟨loc', g', h1, h2, h3, h4, h5, h6⟩ := h
    exact ⟨loc', g', h1, h2, h3, h4, fun k hk => h5 k (fun h => hk (hS k h)), h6⟩
  | fail m =>
    obtain ⟨loc', g', h1, h2, h3, h4, h5⟩ := h
    exact ⟨loc', g', h1, h2, h3, h4, fun k hk => h5 k (fun h => hk (hS k h))⟩

/-- A test that succeeds. -/
theorem out_test {fn S k q loc g i ko r p m} (hi : fn[k]? = some i) (ht : IsTest prog P inp g i ko r) (h : Tested inp g r true p) (hm : Marked g m) :
    Out gr prog P inp fn S k loc g (k+1) q (.ok p [] m) := by
  obtain ⟨g', h1, h2, h3, h4, h5, h6, h7, h8, h9⟩ := h
  subst h1
  refine ⟨loc, g', go_test hi ht, h2, ⟨by rw [h4]; exact hm.1, by rw [h5]; exact hm.2.1, by rw [h6]; exact hm.2.2⟩, ⟨h9, by omega, fun _ _ => by rw [h7]⟩,
    fun _ _ => rfl, h3 rfl, ?_⟩
  rw [T, T, h7, h8]; simp

/-- A test that fails. -/
theorem out_testf {fn S k q loc g i ko r p m okpc} (hu : Uniq fn) (hi : fn[k]? = some i) (hq : fn[q]? = some (.label ko)) (ht : IsTest prog P inp g i ko r)
    (h : Tested inp g r false p) (hm : Marked g m) :
    Out gr prog P inp fn S k loc g okpc q (.fail m) := by
  obtain ⟨g', h1, h2, h3, h4, h5, h6, h7, h8, h9⟩ := h
  subst h1
  exact ⟨loc, g', go_fail hu hi hq ht, h2, ⟨by rw [h4]; exact hm.1, by rw [h5]; exact hm.2.1, by rw [h6]; exact hm.2.2⟩, ⟨h9, by omega, fun _ _ => by rw [h7]⟩,
    fun _ _ => rfl⟩

/-- The code gets to `okpc` after an expression; what comes then. -/
theorem Out.next {fn S pc loc g okpc q p evs m} {S' : Nat → Prop} {res : Res} {pc2} {q2}
    (h : Out gr prog P inp fn S pc loc g okpc q (.ok p evs m)) (hS : ∀ k, S k → S' k)
    (k : ∀ loc' g', Inv inp g' → Marked g' m → g'.pos = p → (∀ k, ¬ S k → loc' k = loc k) → Out gr prog P inp fn S' okpc loc' g' pc2 q2 res) :
    Out gr prog P inp fn S' pc loc g pc2 q2 (match res with | .ok p2 ev2 m2 => .ok p2 (evs ++ ev2) m2 | .fail m2 => .fail m2) := by
  obtain ⟨loc', g', h1, h2, h3, h4, h5, h6, h7⟩ := h
  have := k loc' g' h2 h3 h6 h5
  cases res with
  | ok p2 ev2 m2 =>
    obtain ⟨loc2, g2, k1, k2, k3, k4, k5, k6, k7⟩ := this
    refine ⟨loc2, g2, h1.trans k1, k2, k3, h4.trans k4, fun k hk => by rw [k5 k hk, h5 k (fun h => hk (hS k h))], k6, ?_⟩
    rw [k7, h7]; simp
  | fail m2 =>
    obtain ⟨loc2, g2, k1, k2, k3, k4, k5⟩ := this
    exact ⟨loc2, g2, h1.trans k1, k2, k3, h4.trans k4, fun k hk => by rw [k5 k hk, h5 k (fun h => hk (hS k h))]⟩

/-- Steps that change no state in front of an expression. -/
theorem Out.before {fn S pc loc g pc1 loc1 okpc q res} (hg : Go prog P inp fn pc loc g pc1 loc1 g) (hl : ∀ k, ¬ S k → loc1 k = loc k)
    (h : Out gr prog P inp fn S pc1 loc1 g okpc q res) : Out gr prog P inp fn S pc loc g okpc q res := by
  cases res with
  | ok p evs m =>
    obtain ⟨loc', g', h1, h2, h3, h4, h5, h6⟩ := h
    exact ⟨loc', g', hg.trans h1, h2, h3, h4, fun k hk => by rw [h5 k hk, hl k hk], h6⟩
  | fail m =>
    obtain ⟨loc', g', h1, h2, h3, h4, h5⟩ := h
    exact ⟨loc', g', hg.trans h1, h2, h3, h4, fun k hk => by rw [h5 k hk, hl k hk]⟩

/-- Steps that change no state after an expression. -/
theorem Out.after {fn S pc loc g okpc okpc' q q' p evs m} (h : Out gr prog P inp fn S pc loc g okpc q (.ok p evs m))
    (hg : ∀ loc g, Go prog P inp fn okpc loc g okpc' loc g) : Out gr prog P inp fn S pc loc g okpc' q' (.ok p evs m) := by
  obtain ⟨loc', g', h1, h2⟩ := h
  exact ⟨loc', g', h1.trans (hg _ _), h2⟩

theorem Out.at {fn S pc loc g okpc okpc' q res} (h : Out gr prog P inp fn S pc loc g okpc q res) (he : okpc = okpc') :
    Out gr prog P inp fn S pc loc g okpc' q res := he ▸ h
theorem Go.at {fn pc loc g pc1 loc1 g1 pc2} (h : Go prog P inp fn pc loc g pc1 loc1 g1) (he : pc1 = pc2) :
    Go prog P inp fn pc loc g pc2 loc1 g1 := he ▸ h

/-- Going back to where `save n` was, with the state then. -/
theorem go_back {fn q n loc' g g'} (h0 : Inv inp g) (hq : fn[q]? = some (.restore n)) (hi : Inv inp g') (hx : Ext g g') (hl : loc' n = (g.pos, g.thunkpos)) :
    ∃ g2, Go prog P inp fn q loc' g' (q+1) loc' g2 ∧ Inv inp g2 ∧ Ext g g2 ∧ g2.pos = g.pos ∧ g2.thunkpos = g.thunkpos ∧ T g2 = T g ∧
      (∀ m, Marked g' m → Marked g2 m) := by
  have := go_restore (prog := prog) (P := P) (inp := inp) (loc := loc') (g := g') hq
  rw [hl] at this
  exact ⟨_, this, inv_restore h0 hi hx, ext_restore hx, rfl, rfl, T_restore hx, fun _ h => h⟩

variable (hg : ∀ (r : Nat) ru, gr[r]? = some ru → ru.body.Ascii)
  (hprog : ∀ (r : Nat) ru, gr[r]? = some ru → ∃ n, prog[r]? = some (compRule ru n).1)

theorem upd_same {f : Nat → Nat × Nat} {n x} : (fun k => if k = n then x else f k) n = x := by simp

include hg hprog in
theorem sim {r e pos m res} (h : Eval gr P inp r e pos m res) : ∀ ru, gr[r]? = some ru → e.Ascii →
    Sim gr prog P inp ru e pos m res ∧ (∀ l, e = .alt l → SimAlts gr prog P inp ru l pos m res) ∧
    (∀ e', e = .star e' → SimStar gr prog P inp ru e' pos m res) := by
  induction h with
  | @anyOk r pos m c h =>
    intro ru hr ha
    refine ⟨?_, fun _ h => (by cases h), fun _ h => (by cases h)⟩
    intro ko n fn k q loc g hu hat hq hi hp hm
    subst hp
    rw [comp] at hat ⊢
    have := dot_ok hi
    rw [h] at this
    exact out_test hat.head .dot this hm
  | @anyFail r pos m h =>
    intro ru hr ha
    refine ⟨?_, fun _ h => (by cases h), fun _ h => (by cases h)⟩
    intro ko n fn k q loc g hu hat hq hi hp hm
    subst hp
    rw [comp] at hat ⊢
    have := dot_ok hi
    rw [h] at this
    exact out_testf hu hat.head (hq.resolve_left (by simp [Exp.safe])) .dot this hm
  | @chrOk r pos m c h =>
    intro ru hr ha
    refine ⟨?_, fun _ h => (by cases h), fun _ h => (by cases h)⟩
    intro ko n fn k q loc g hu hat hq hi hp hm
    subst hp
    rw [comp] at hat ⊢
    rw [Exp.Ascii] at ha
    have := chr_ok c ha hi
    rw [decide_eq_true h] at this
    exact out_test hat.head .chr this hm
  | @chrFail r pos m c h =>
    intro ru hr ha
    refine ⟨?_, fun _ h => (by cases h), fun _ h => (by cases h)⟩
    intro ko n fn k q loc g hu hat hq hi hp hm
    subst hp
    rw [comp] at hat ⊢
    rw [Exp.Ascii] at ha
    have := chr_ok c ha hi
    rw [decide_eq_false h] at this
    exact out_testf hu hat.head (hq.resolve_left (by simp [Exp.safe])) .chr this hm
  | @strOk r pos m s h =>
    intro ru hr ha
    refine ⟨?_, fun _ h => (by cases h), fun _ h => (by cases h)⟩
    intro ko n fn k q loc g hu hat hq hi hp hm
    subst hp
    rw [comp] at hat ⊢
    have := str_ok g.pos s g hi hi.pos
    rw [decide_eq_true h] at this
    exact out_test hat.head .str this hm
  | @strFail r pos m s h =>
    intro ru hr ha
    refine ⟨?_, fun _ h => (by cases h), fun _ h => (by cases h)⟩
    intro ko n fn k q loc g hu hat hq hi hp hm
    subst hp
    rw [comp] at hat ⊢
    have := str_ok g.pos s g hi hi.pos
    rw [decide_eq_false h] at this
    exact out_testf hu hat.head (hq.resolve_left (by simp [Exp.safe])) .str this hm
  | @clsOk r pos m t p c hc h hpc =>
    intro ru hr ha
    refine ⟨?_, fun _ h => (by cases h), fun _ h => (by cases h)⟩
    intro ko n fn k q loc g hu hat hq hi hp hm
    subst hp
    rw [comp] at hat ⊢
    have := cls_ok hc hi true ⟨fun _ => ⟨c, h, hpc⟩, fun _ => rfl⟩
    exact out_test hat.head .cls this hm
  | @clsFail r pos m t p hc h =>
    intro ru hr ha
    refine ⟨?_, fun _ h => (by cases h), fun _ h => (by cases h)⟩
    intro ko n fn k q loc g hu hat hq hi hp hm
    subst hp
    rw [comp] at hat ⊢
    have := cls_ok hc hi false ⟨by simp, fun ⟨c, h1, h2⟩ => absurd h2 (h c h1)⟩
    exact out_testf hu hat.head (hq.resolve_left (by simp [Exp.safe])) .cls this hm
  | @act r pos m a =>
    intro ru hr ha
    refine ⟨?_, fun _ h => (by cases h), fun _ h => (by cases h)⟩
    intro ko n fn k q loc g hu hat hq hi hp hm
    rw [comp] at hat ⊢
    obtain ⟨g2, e1, e2, e3, e4, e5, e6, e7, e8⟩ := yyDo_ok (.act a ru.nvars g.b g.e) hi (by intro _ _ _ _ he; cases he; exact ⟨hi.b, hi.e⟩)
    refine ⟨loc, g2, go_act hat.head e1, e2, ⟨by rw [e4]; exact hm.1, by rw [e5]; exact hm.2.1, by rw [e6]; exact hm.2.2⟩, e8, fun _ _ => rfl, by omega, ?_⟩
    rw [e7, hm.1, hm.2.1]; simp [thunk, hr]
  | @predOk r pos m p h =>
    intro ru hr ha
    refine ⟨?_, fun _ h => (by cases h), fun _ h => (by cases h)⟩
    intro ko n fn k q loc g hu hat hq hi hp hm
    rw [comp] at hat ⊢
    obtain ⟨len, h1, h2⟩ := text_ok hi
    exact out_test hat.head (.pred h1) ⟨_, by rw [hm.1, hm.2.1, h], inv_text hi h2, fun _ => hp, rfl, rfl, rfl, rfl, rfl, Nat.le_refl _⟩ hm
  | @predFail r pos m p h =>
    intro ru hr ha
    refine ⟨?_, fun _ h => (by cases h), fun _ h => (by cases h)⟩
    intro ko n fn k q loc g hu hat hq hi hp hm
    rw [comp] at hat ⊢
    obtain ⟨len, h1, h2⟩ := text_ok hi
    exact out_testf (p := 0) hu hat.head (hq.resolve_left (by simp [Exp.safe])) (.pred h1) ⟨_, by rw [hm.1, hm.2.1, h], inv_text hi h2, by simp, rfl, rfl, rfl, rfl, rfl, Nat.le_refl _⟩ hm
  | @«open» r pos m =>
    intro ru hr ha
    refine ⟨?_, fun _ h => (by cases h), fun _ h => (by cases h)⟩
    intro ko n fn k q loc g hu hat hq hi hp hm
    rw [comp] at hat ⊢
    obtain ⟨len, h1, h2⟩ := text_ok hi
    refine ⟨loc, _, go_open hat.head h1, ⟨hi.short, hi.lim, hi.buf, hi.len, hi.pos, hi.pos, hi.e, h2, hi.thunks, hi.acts⟩, ⟨hp, hm.2.1, hm.2.2⟩, ⟨Nat.le_refl _, Nat.le_refl _, fun _ _ => rfl⟩,
      fun _ _ => rfl, hp, by simp [T]⟩
  | @close r pos m =>
    intro ru hr ha
    refine ⟨?_, fun _ h => (by cases h), fun _ h => (by cases h)⟩
    intro ko n fn k q loc g hu hat hq hi hp hm
    rw [comp] at hat ⊢
    obtain ⟨len, h1, h2⟩ := text_ok hi
    refine ⟨loc, _, go_close hat.head h1, ⟨hi.short, hi.lim, hi.buf, hi.len, hi.pos, hi.b, hi.pos, h2, hi.thunks, hi.acts⟩, ⟨hm.1, hp, hm.2.2⟩, ⟨Nat.le_refl _, Nat.le_refl _, fun _ _ => rfl⟩,
      fun _ _ => rfl, hp, by simp [T]⟩
  | @errOk r e j pos m p' evs m' h ih =>
    intro ru hr ha
    refine ⟨?_, fun _ h => (by cases h), fun _ h => (by cases h)⟩
    intro ko n fn k q loc g hu hat hq hi hp hm
    rw [comp_err] at hat ⊢
    have hr1 := hat.right
    have := (ih ru hr (by simpa [Exp.Ascii] using ha)).1 (n+2) (n+2) fn k (k + (comp ru e (n+2) (n+2)).1.length + 1) loc g hu hat.left (.inr hr1.tail.head) hi hp hm
    have := (this.mono (S' := fun x => n < x ∧ x ≤ (comp ru e (n+2) (n+2)).2) (fun x hx => by omega)).after (q' := q) (fun loc g =>
      (go_goto hu hr1.head hr1.tail.tail.tail.tail.head).trans (go_label hr1.tail.tail.tail.tail.head))
    exact this.at (by simp <;> omega)
  | @errFail r e j pos m m' h ih =>
    intro ru hr ha
    refine ⟨?_, fun _ h => (by cases h), fun _ h => (by cases h)⟩
    intro ko n fn k q loc g hu hat hq hi hp hm
    rw [comp_err] at hat ⊢
    have hr1 := hat.right
    obtain ⟨loc', g', h1, h2, h3, h4, h5⟩ := (ih ru hr (by simpa [Exp.Ascii] using ha)).1 (n+2) (n+2) fn k (k + (comp ru e (n+2) (n+2)).1.length + 1) loc g hu hat.left (.inr hr1.tail.head) hi hp hm
    obtain ⟨len, t1, t2⟩ := text_ok h2
    refine ⟨loc', _, h1.trans ((go_label hr1.tail.head).trans ((go_err hr1.tail.tail.head t1).trans (go_goto hu hr1.tail.tail.tail.head (hq.resolve_left (by simp [Exp.safe]))))), ?_, ?_, ?_, ?_⟩
    · exact ⟨h2.short, h2.lim, h2.buf, h2.len, h2.pos, h2.b, h2.e, t2, h2.thunks, h2.acts⟩
    · exact ⟨h3.1, h3.2.1, by rw [h3.2.2]⟩
    · exact ⟨h4.limit, h4.thunkpos, h4.thunks⟩
    · intro x hx; exact h5 x (by dsimp only at hx; omega)
  | @altOk r e l pos m p' evs m' h ih =>
    intro ru hr ha
    have ha' : e.Ascii ∧ l.Ascii := by simpa [Exp.Ascii, Exps.Ascii] using ha
    have hA : SimAlts gr prog P inp ru (.cons e l) pos m (.ok p' evs m') := by
      intro ko ok n fn k q loc g hu hat hok hq hl hle hi hp hm
      cases l with
      | nil =>
        rw [compAlts_one] at hat hok ⊢
        exact (ih ru hr ha'.1).1 ko n fn k q loc g hu hat (.inr hq) hi hp hm
      | cons e' l =>
        rw [compAlts_more] at hat hok ⊢
        have hr1 := hat.right
        have hfr := compAlts_fresh ru (.cons e' l) ko ok (comp ru e (n+1) (n+1)).2
        have := (ih ru hr ha'.1).1 (n+1) (n+1) fn k (k + (comp ru e (n+1) (n+1)).1.length + 1) loc g hu hat.left (.inr hr1.tail.head) hi hp hm
        exact (this.mono (fun x hx => by have := hfr.1; dsimp only; omega)).after (q' := q) (fun loc g => go_goto hu hr1.head hok)
    refine ⟨?_, ?_, fun _ h => (by cases h)⟩
    · intro ko n fn k q loc g hu hat hq hi hp hm
      rw [comp_alt] at hat ⊢
      have h2 : At fn (k+1) ((compAlts ru (.cons e l) ko (n+1) (n+1)).1 ++ [.label (n+1)]) := hat.tail
      have hfr := compAlts_fresh ru (.cons e l) ko (n+1) (n+1)
      have := hA ko (n+1) (n+1) fn (k+1) q (fun x => if x = n+1 then (g.pos, g.thunkpos) else loc x) g hu h2.left h2.right.head (hq.resolve_left (by simp [Exp.safe])) (by simp) (by omega) hi hp hm
      have := (this.mono (S' := fun x => n < x ∧ x ≤ (compAlts ru (.cons e l) ko (n+1) (n+1)).2) (fun x hx => by omega)).after (q' := q) (fun loc g => go_label h2.right.head)
      have := this.before (go_save hat.head) (fun x hx => by rw [if_neg (by have := hfr.1; omega)])
      exact this.at (by simp <;> omega)
    · intro l' e; cases e; exact hA
  | @altFail r e pos m m' h ih =>
    intro ru hr ha
    have ha' : e.Ascii := by simpa [Exp.Ascii, Exps.Ascii] using ha
    have hA : SimAlts gr prog P inp ru (.cons e .nil) pos m (.fail m') := by
      intro ko ok n fn k q loc g hu hat hok hq hl hle hi hp hm
      rw [compAlts_one] at hat hok ⊢
      exact (ih ru hr ha').1 ko n fn k q loc g hu hat (.inr hq) hi hp hm
    refine ⟨?_, ?_, fun _ h => (by cases h)⟩
    · intro ko n fn k q loc g hu hat hq hi hp hm
      rw [comp_alt] at hat ⊢
      have h2 : At fn (k+1) ((compAlts ru (.cons e .nil) ko (n+1) (n+1)).1 ++ [.label (n+1)]) := hat.tail
      have hfr := compAlts_fresh ru (.cons e .nil) ko (n+1) (n+1)
      have := hA ko (n+1) (n+1) fn (k+1) q (fun x => if x = n+1 then (g.pos, g.thunkpos) else loc x) g hu h2.left h2.right.head (hq.resolve_left (by simp [Exp.safe])) (by simp) (by omega) hi hp hm
      have := (this.mono (S' := fun x => n < x ∧ x ≤ (compAlts ru (.cons e .nil) ko (n+1) (n+1)).2) (fun x hx => by omega))
      exact this.before (go_save hat.head) (fun x hx => by rw [if_neg (by have := hfr.1; omega)])
    · intro l' e; cases e; exact hA
  | @altNext r e e' l pos m m' res h h' ih ih' =>
    intro ru hr ha
    have ha' : e.Ascii ∧ (Exp.alt (.cons e' l)).Ascii := by simpa [Exp.Ascii, Exps.Ascii] using ha
    have hA : SimAlts gr prog P inp ru (.cons e (.cons e' l)) pos m res := by
      intro ko ok n fn k q loc g hu hat hok hq hl hle hi hp hm
      rw [compAlts_more] at hat hok ⊢
      dsimp only at hat hok ⊢
      have hr1 := hat.right
      have hfr1 := comp_fresh ru e (n+1) (n+1)
      have hfr := compAlts_fresh ru (.cons e' l) ko ok (comp ru e (n+1) (n+1)).2
      obtain ⟨loc', g', h1, h2, h3, h4, h5⟩ := (ih ru hr ha'.1).1 (n+1) (n+1) fn k (k + (comp ru e (n+1) (n+1)).1.length + 1) loc g hu hat.left (.inr hr1.tail.head) hi hp hm
      obtain ⟨g2, b1, b2, b3, b4, b5, b6, b7⟩ := go_back (prog := prog) (P := P) (loc' := loc') hi hr1.tail.tail.head h2 h4 (by rw [h5 ok (by omega), hl])
      have hgo := h1.trans ((go_label hr1.tail.head).trans b1)
      have hlen : k + ((comp ru e (n+1) (n+1)).1 ++ Ins.goto ok :: Ins.label (n+1) :: Ins.restore ok :: (compAlts ru (.cons e' l) ko ok (comp ru e (n+1) (n+1)).2).1).length =
        k + (comp ru e (n+1) (n+1)).1.length + 1 + 1 + 1 + (compAlts ru (.cons e' l) ko ok (comp ru e (n+1) (n+1)).2).1.length := by simp; omega
      rw [hlen] at hok ⊢
      have := (ih' ru hr ha'.2).2.1 _ rfl ko ok _ fn _ q loc' g2 hu hr1.tail.tail.tail hok hq (by rw [h5 ok (by omega), hl, b4, b5]) (by have := hfr1.1; omega) b2 (by omega) (b7 _ h3)
      cases res with
      | ok p2 ev2 m2 =>
        obtain ⟨loc2, g3, k1, k2, k3, k4, k5, k6, k7⟩ := this
        refine ⟨loc2, g3, hgo.trans k1, k2, k3, b3.trans k4, fun x hx => ?_, k6, by rw [k7, b6]⟩
        have := hfr.1; have := hfr1.1
        rw [k5 x (by omega), h5 x (by omega)]
      | fail m2 =>
        obtain ⟨loc2, g3, k1, k2, k3, k4, k5⟩ := this
        refine ⟨loc2, g3, hgo.trans k1, k2, k3, b3.trans k4, fun x hx => ?_⟩
        have := hfr.1; have := hfr1.1
        rw [k5 x (by omega), h5 x (by omega)]
    refine ⟨?_, ?_, fun _ h => (by cases h)⟩
    · intro ko n fn k q loc g hu hat hq hi hp hm
      rw [comp_alt] at hat ⊢
      have h2 : At fn (k+1) ((compAlts ru (.cons e (.cons e' l)) ko (n+1) (n+1)).1 ++ [.label (n+1)]) := hat.tail
      have hfr := compAlts_fresh ru (.cons e (.cons e' l)) ko (n+1) (n+1)
      have := hA ko (n+1) (n+1) fn (k+1) q (fun x => if x = n+1 then (g.pos, g.thunkpos) else loc x) g hu h2.left h2.right.head (hq.resolve_left (by simp [Exp.safe])) (by simp) (by omega) hi hp hm
      have := (this.mono (S' := fun x => n < x ∧ x ≤ (compAlts ru (.cons e (.cons e' l)) ko (n+1) (n+1)).2) (fun x hx => by omega))
      have := this.before (go_save hat.head) (fun x hx => by rw [if_neg (by have := hfr.1; omega)])
      cases res with
      | ok p2 ev2 m2 => 
        have := this.after (q' := q) (fun loc g => go_label h2.right.head)
        exact this.at (by simp <;> omega)
      | fail m2 => exact this
    · intro l' e; cases e; exact hA
  | @seqNil r pos m =>
    intro ru hr ha
    refine ⟨?_, fun _ h => (by cases h), fun _ h => (by cases h)⟩
    intro ko n fn k q loc g hu hat hq hi hp hm
    rw [comp, compSeq] at hat ⊢
    exact ⟨loc, g, Go.refl, hi, hm, Ext.refl g, fun _ _ => rfl, hp, by simp⟩
  | @seqFail r e l pos m m' h ih =>
    intro ru hr ha
    have ha' : e.Ascii ∧ (Exp.seq l).Ascii := by simpa [Exp.Ascii, Exps.Ascii] using ha
    refine ⟨?_, fun _ h => (by cases h), fun _ h => (by cases h)⟩
    intro ko n fn k q loc g hu hat hq hi hp hm
    rw [comp, compSeq_cons] at hat ⊢
    have hfr := compSeq_fresh ru l ko (comp ru e ko n).2
    have := (ih ru hr ha'.1).1 ko n fn k q loc g hu hat.left (.inr (hq.resolve_left (by simp [Exp.safe]))) hi hp hm
    exact this.mono (fun x hx => by have := hfr.1; dsimp only; omega)
  | @seqOk r e l pos m p1 ev1 m1 p2 ev2 m2 h h' ih ih' =>
    intro ru hr ha
    have ha' : e.Ascii ∧ (Exp.seq l).Ascii := by simpa [Exp.Ascii, Exps.Ascii] using ha
    refine ⟨?_, fun _ h => (by cases h), fun _ h => (by cases h)⟩
    intro ko n fn k q loc g hu hat hq hi hp hm
    rw [comp, compSeq_cons] at hat ⊢
    have hfr1 := comp_fresh ru e ko n
    have hfr := compSeq_fresh ru l ko (comp ru e ko n).2
    have hq' := hq.resolve_left (by simp [Exp.safe])
    have := (ih ru hr ha'.1).1 ko n fn k q loc g hu hat.left (.inr hq') hi hp hm
    refine this.next (res := .ok p2 ev2 m2) (fun x hx => by have := hfr.1; dsimp only; omega) ?_
    intro loc' g' i1 i2 i3 i4
    have h2 := (ih' ru hr ha'.2).1 ko (comp ru e ko n).2 fn (k + (comp ru e ko n).1.length) q loc' g' hu (by rw [comp]; exact hat.right) (.inr hq') i1 i3 i2
    rw [comp] at h2
    have := h2.mono (S' := fun x => n < x ∧ x ≤ (compSeq ru l ko (comp ru e ko n).2).2) (fun x hx => by have := hfr1.1; omega)
    exact this.at (by simp <;> omega)
  | @seqFail2 r e l pos m p1 ev1 m1 m2 h h' ih ih' =>
    intro ru hr ha
    have ha' : e.Ascii ∧ (Exp.seq l).Ascii := by simpa [Exp.Ascii, Exps.Ascii] using ha
    refine ⟨?_, fun _ h => (by cases h), fun _ h => (by cases h)⟩
    intro ko n fn k q loc g hu hat hq hi hp hm
    rw [comp, compSeq_cons] at hat ⊢
    have hfr1 := comp_fresh ru e ko n
    have hfr := compSeq_fresh ru l ko (comp ru e ko n).2
    have hq' := hq.resolve_left (by simp [Exp.safe])
    have := (ih ru hr ha'.1).1 ko n fn k q loc g hu hat.left (.inr hq') hi hp hm
    refine this.next (res := .fail m2) (fun x hx => by have := hfr.1; dsimp only; omega) ?_
    intro loc' g' i1 i2 i3 i4
    have h2 := (ih' ru hr ha'.2).1 ko (comp ru e ko n).2 fn (k + (comp ru e ko n).1.length) q loc' g' hu (by rw [comp]; exact hat.right) (.inr hq') i1 i3 i2
    rw [comp] at h2
    exact h2.mono (S' := fun x => n < x ∧ x ≤ (compSeq ru l ko (comp ru e ko n).2).2) (fun x hx => by have := hfr1.1; omega)
  | @peekOk r e pos m p' evs m' h ih =>
    intro ru hr ha
    refine ⟨?_, fun _ h => (by cases h), fun _ h => (by cases h)⟩
    intro ko n fn k q loc g hu hat hq hi hp hm
    rw [comp_peek] at hat ⊢
    have h2 : At fn (k+1) ((comp ru e ko (n+1)).1 ++ [.restore (n+1)]) := hat.tail
    have hfr := comp_fresh ru e ko (n+1)
    obtain ⟨loc', g', k1, k2, k3, k4, k5, k6, k7⟩ := (ih ru hr (by simpa [Exp.Ascii] using ha)).1 ko (n+1) fn (k+1) q (fun x => if x = n+1 then (g.pos, g.thunkpos) else loc x) g hu h2.left
      (.inr (hq.resolve_left (by simp [Exp.safe]))) hi hp hm
    obtain ⟨g2, b1, b2, b3, b4, b5, b6, b7⟩ := go_back (prog := prog) (P := P) (loc' := loc') hi h2.right.head k2 k4 ((k5 (n+1) (by omega)).trans (if_pos rfl))
    refine ⟨loc', g2, ?_, b2, b7 _ k3, b3, fun x hx => ?_, by omega, by simp [b6]⟩
    · have := (go_save hat.head).trans (k1.trans b1)
      exact this.at (by simp <;> omega)
    · have := hfr.1
      dsimp only at hx
      exact (k5 x (by omega)).trans (if_neg (by omega))
  | @peekFail r e pos m m' h ih =>
    intro ru hr ha
    refine ⟨?_, fun _ h => (by cases h), fun _ h => (by cases h)⟩
    intro ko n fn k q loc g hu hat hq hi hp hm
    rw [comp_peek] at hat ⊢
    have h2 : At fn (k+1) ((comp ru e ko (n+1)).1 ++ [.restore (n+1)]) := hat.tail
    have hfr := comp_fresh ru e ko (n+1)
    have := (ih ru hr (by simpa [Exp.Ascii] using ha)).1 ko (n+1) fn (k+1) q (fun x => if x = n+1 then (g.pos, g.thunkpos) else loc x) g hu h2.left
      (.inr (hq.resolve_left (by simp [Exp.safe]))) hi hp hm
    exact (this.mono (S' := fun x => n < x ∧ x ≤ (comp ru e ko (n+1)).2) (fun x hx => by omega)).before (go_save hat.head) (fun x hx => by rw [if_neg (by have := hfr.1; omega)])
  | @notOk r e pos m m' h ih =>
    intro ru hr ha
    refine ⟨?_, fun _ h => (by cases h), fun _ h => (by cases h)⟩
    intro ko n fn k q loc g hu hat hq hi hp hm
    rw [comp_not] at hat ⊢
    have h2 : At fn (k+1) ((comp ru e (n+1) (n+1)).1 ++ [.goto ko, .label (n+1), .restore (n+1)]) := hat.tail
    have hr1 := h2.right
    have hfr := comp_fresh ru e (n+1) (n+1)
    obtain ⟨loc', g', k1, k2, k3, k4, k5⟩ := (ih ru hr (by simpa [Exp.Ascii] using ha)).1 (n+1) (n+1) fn (k+1) (k + 1 + (comp ru e (n+1) (n+1)).1.length + 1) (fun x => if x = n+1 then (g.pos, g.thunkpos) else loc x) g hu h2.left
      (.inr hr1.tail.head) hi hp hm
    obtain ⟨g2, b1, b2, b3, b4, b5, b6, b7⟩ := go_back (prog := prog) (P := P) (loc' := loc') hi hr1.tail.tail.head k2 k4 ((k5 (n+1) (by omega)).trans (if_pos rfl))
    refine ⟨loc', g2, ?_, b2, b7 _ k3, b3, fun x hx => ?_, by omega, by simp [b6]⟩
    · have := (go_save hat.head).trans (k1.trans ((go_label hr1.tail.head).trans b1))
      exact this.at (by simp <;> omega)
    · have := hfr.1
      dsimp only at hx
      exact (k5 x (by omega)).trans (if_neg (by omega))
  | @notFail r e pos m p' evs m' h ih =>
    intro ru hr ha
    refine ⟨?_, fun _ h => (by cases h), fun _ h => (by cases h)⟩
    intro ko n fn k q loc g hu hat hq hi hp hm
    rw [comp_not] at hat ⊢
    have h2 : At fn (k+1) ((comp ru e (n+1) (n+1)).1 ++ [.goto ko, .label (n+1), .restore (n+1)]) := hat.tail
    have hr1 := h2.right
    have hfr := comp_fresh ru e (n+1) (n+1)
    obtain ⟨loc', g', k1, k2, k3, k4, k5, k6, k7⟩ := (ih ru hr (by simpa [Exp.Ascii] using ha)).1 (n+1) (n+1) fn (k+1) (k + 1 + (comp ru e (n+1) (n+1)).1.length + 1) (fun x => if x = n+1 then (g.pos, g.thunkpos) else loc x) g hu h2.left
      (.inr hr1.tail.head) hi hp hm
    refine ⟨loc', g', (go_save hat.head).trans (k1.trans (go_goto hu hr1.head (hq.resolve_left (by simp [Exp.safe])))), k2, k3, k4, fun x hx => ?_⟩
    have := hfr.1
    dsimp only at hx
    exact (k5 x (by omega)).trans (if_neg (by omega))
  | @optSome r e pos m p' evs m' h ih =>
    intro ru hr ha
    refine ⟨?_, fun _ h => (by cases h), fun _ h => (by cases h)⟩
    intro ko n fn k q loc g hu hat hq hi hp hm
    rw [comp_opt] at hat ⊢
    have h2 : At fn (k+1) ((comp ru e (n+2) (n+2)).1 ++ [.goto (n+1), .label (n+2), .restore (n+2), .label (n+1)]) := hat.tail
    have hr1 := h2.right
    have hfr := comp_fresh ru e (n+2) (n+2)
    have := (ih ru hr (by simpa [Exp.Ascii] using ha)).1 (n+2) (n+2) fn (k+1) (k + 1 + (comp ru e (n+2) (n+2)).1.length + 1) (fun x => if x = n+2 then (g.pos, g.thunkpos) else loc x) g hu h2.left
      (.inr hr1.tail.head) hi hp hm
    have := (this.mono (S' := fun x => n < x ∧ x ≤ (comp ru e (n+2) (n+2)).2) (fun x hx => by omega)).after (q' := q) (fun loc g =>
      (go_goto hu hr1.head hr1.tail.tail.tail.head).trans (go_label hr1.tail.tail.tail.head))
    have := this.before (go_save hat.head) (fun x hx => by rw [if_neg (by have := hfr.1; omega)])
    exact this.at (by simp <;> omega)
  | @optNone r e pos m m' h ih =>
    intro ru hr ha
    refine ⟨?_, fun _ h => (by cases h), fun _ h => (by cases h)⟩
    intro ko n fn k q loc g hu hat hq hi hp hm
    rw [comp_opt] at hat ⊢
    have h2 : At fn (k+1) ((comp ru e (n+2) (n+2)).1 ++ [.goto (n+1), .label (n+2), .restore (n+2), .label (n+1)]) := hat.tail
    have hr1 := h2.right
    have hfr := comp_fresh ru e (n+2) (n+2)
    obtain ⟨loc', g', k1, k2, k3, k4, k5⟩ := (ih ru hr (by simpa [Exp.Ascii] using ha)).1 (n+2) (n+2) fn (k+1) (k + 1 + (comp ru e (n+2) (n+2)).1.length + 1) (fun x => if x = n+2 then (g.pos, g.thunkpos) else loc x) g hu h2.left
      (.inr hr1.tail.head) hi hp hm
    obtain ⟨g2, b1, b2, b3, b4, b5, b6, b7⟩ := go_back (prog := prog) (P := P) (loc' := loc') hi hr1.tail.tail.head k2 k4 ((k5 (n+2) (by omega)).trans (if_pos rfl))
    refine ⟨loc', g2, ?_, b2, b7 _ k3, b3, fun x hx => ?_, by omega, by simp [b6]⟩
    · have := (go_save hat.head).trans (k1.trans ((go_label hr1.tail.head).trans (b1.trans (go_label hr1.tail.tail.tail.head))))
      exact this.at (by simp <;> omega)
    · have := hfr.1
      dsimp only at hx
      exact (k5 x (by omega)).trans (if_neg (by omega))
  | @starEnd r e pos m m' h ih =>
    intro ru hr ha
    have ha' : e.Ascii := by simpa [Exp.Ascii] using ha
    have hA : SimStar gr prog P inp ru e pos m (.ok pos [] m') := by
      intro again out n fn k loc g hu hat hle hi hp hm
      rw [starCode] at hat ⊢
      have h2 : At fn (k+1+1) ((comp ru e out n).1 ++ [.goto again, .label out, .restore out]) := hat.tail.tail
      have hr1 := h2.right
      have hfr := comp_fresh ru e out n
      obtain ⟨loc', g', k1, k2, k3, k4, k5⟩ := (ih ru hr ha').1 out n fn (k+1+1) (k + 1 + 1 + (comp ru e out n).1.length + 1) (fun x => if x = out then (g.pos, g.thunkpos) else loc x) g hu h2.left
        (.inr hr1.tail.head) hi hp hm
      obtain ⟨g2, b1, b2, b3, b4, b5, b6, b7⟩ := go_back (prog := prog) (P := P) (loc' := loc') hi hr1.tail.tail.head k2 k4 ((k5 out (by omega)).trans (if_pos rfl))
      refine ⟨loc', g2, ?_, b2, b7 _ k3, b3, fun x hx => ?_, by omega, by simp [b6]⟩
      · have := (go_label hat.head).trans ((go_save hat.tail.head).trans (k1.trans ((go_label hr1.tail.head).trans b1)))
        exact this.at (by simp <;> omega)
      · dsimp only at hx
        exact (k5 x (by omega)).trans (if_neg (by omega))
    refine ⟨?_, fun _ h => (by cases h), ?_⟩
    · intro ko n fn k q loc g hu hat hq hi hp hm
      rw [comp_star] at hat ⊢
      have hfr := comp_fresh ru e (n+2) (n+2)
      have := hA (n+1) (n+2) (n+2) fn k loc g hu hat (by omega) hi hp hm
      exact this.mono (fun x hx => by have := hfr.1; dsimp only; omega)
    · intro e' h; cases h; exact hA
  | @starMore r e pos m p1 ev1 m1 p2 ev2 m2 h h' ih ih' =>
    intro ru hr ha
    have ha' : e.Ascii := by simpa [Exp.Ascii] using ha
    have hA : SimStar gr prog P inp ru e pos m (.ok p2 (ev1 ++ ev2) m2) := by
      intro again out n fn k loc g hu hat hle hi hp hm
      have hat0 := hat
      rw [starCode] at hat
      have h2 : At fn (k+1+1) ((comp ru e out n).1 ++ [.goto again, .label out, .restore out]) := hat.tail.tail
      have hr1 := h2.right
      have hfr := comp_fresh ru e out n
      have := (ih ru hr ha').1 out n fn (k+1+1) (k + 1 + 1 + (comp ru e out n).1.length + 1) (fun x => if x = out then (g.pos, g.thunkpos) else loc x) g hu h2.left
        (.inr hr1.tail.head) hi hp hm
      have := (this.mono (S' := fun x => x = out ∨ (n < x ∧ x ≤ (comp ru e out n).2)) (fun x hx => by omega)).after (q' := 0) (fun loc g => go_goto hu hr1.head hat.head)
      have := this.before ((go_label hat.head).trans (go_save hat.tail.head)) (fun x hx => by rw [if_neg (by omega)])
      refine this.next (res := .ok p2 ev2 m2) (fun x hx => hx) ?_
      intro loc' g' i1 i2 i3 i4
      exact (ih' ru hr ha).2.2 _ rfl again out n fn k loc' g' hu hat0 hle i1 i3 i2
    refine ⟨?_, fun _ h => (by cases h), ?_⟩
    · intro ko n fn k q loc g hu hat hq hi hp hm
      rw [comp_star] at hat ⊢
      have hfr := comp_fresh ru e (n+2) (n+2)
      have := hA (n+1) (n+2) (n+2) fn k loc g hu hat (by omega) hi hp hm
      exact this.mono (fun x hx => by have := hfr.1; dsimp only; omega)
    · intro e' h; cases h; exact hA
  | @plusFail r e pos m m' h ih =>
    intro ru hr ha
    have ha' : e.Ascii := by simpa [Exp.Ascii] using ha
    refine ⟨?_, fun _ h => (by cases h), fun _ h => (by cases h)⟩
    intro ko n fn k q loc g hu hat hq hi hp hm
    rw [comp_plus] at hat ⊢
    have hfr1 := comp_fresh ru e ko (n+2)
    have hfr := comp_fresh ru e (n+2) (comp ru e ko (n+2)).2
    have := (ih ru hr ha').1 ko (n+2) fn k q loc g hu hat.left (.inr (hq.resolve_left (by simp [Exp.safe]))) hi hp hm
    exact this.mono (fun x hx => by have := hfr.1; dsimp only; omega)
  | @plusOk r e pos m p1 ev1 m1 p2 ev2 m2 h h' ih ih' =>
    intro ru hr ha
    have ha' : e.Ascii := by simpa [Exp.Ascii] using ha
    refine ⟨?_, fun _ h => (by cases h), fun _ h => (by cases h)⟩
    intro ko n fn k q loc g hu hat hq hi hp hm
    rw [comp_plus] at hat ⊢
    dsimp only at hat ⊢
    have hfr1 := comp_fresh ru e ko (n+2)
    have hfr := comp_fresh ru e (n+2) (comp ru e ko (n+2)).2
    have := (ih ru hr ha').1 ko (n+2) fn k q loc g hu hat.left (.inr (hq.resolve_left (by simp [Exp.safe]))) hi hp hm
    refine this.next (res := .ok p2 ev2 m2) (fun x hx => by have := hfr.1; omega) ?_
    intro loc' g' i1 i2 i3 i4
    have := (ih' ru hr (by simpa [Exp.Ascii] using ha')).2.2 _ rfl (n+1) (n+2) (comp ru e ko (n+2)).2 fn _ loc' g' hu hat.right hfr1.1 i1 i3 i2
    have := this.mono (S' := fun x => n < x ∧ x ≤ (comp ru e (n+2) (comp ru e ko (n+2)).2).2) (fun x hx => by have := hfr.1; have := hfr1.1; omega)
    exact this.at (by simp <;> omega)
  | @nameOk r r' ru' v pos m p' evs m' h1 h ih =>
    intro ru hr ha
    refine ⟨?_, fun _ h => (by cases h), fun _ h => (by cases h)⟩
    intro ko n fn k q loc g hu hat hq hi hp hm
    obtain ⟨n', hp'⟩ := hprog r' ru' h1
    obtain ⟨f, g', e1, e2, e3, e4, e5, e6⟩ := rule_run n' h1 (ih ru' h1 (hg r' ru' h1)).1 (by simp) hi hp hm
    cases v with
    | none =>
      rw [comp] at hat ⊢
      exact ⟨loc, g', go_test hat.head (.call hp' e1), e2, e3, e4, fun _ _ => rfl, e5, by rw [e6]; simp⟩
    | some v =>
      rw [comp] at hat ⊢
      obtain ⟨g2, d1, d2, d3, d4, d5, d6, d7, d8⟩ := yyDo_ok (.set (offset ru v)) e2 (by simp)
      refine ⟨loc, g2, (go_test hat.head (.call hp' e1)).trans (go_do hat.tail.head d1), d2, ⟨by rw [d4]; exact e3.1, by rw [d5]; exact e3.2.1, by rw [d6]; exact e3.2.2⟩,
        e4.trans d8, fun _ _ => rfl, by omega, ?_⟩
      rw [d7, e6]
      simp [thunk, hr]
  | @nameFail r r' ru' v pos m m' h1 h ih =>
    intro ru hr ha
    refine ⟨?_, fun _ h => (by cases h), fun _ h => (by cases h)⟩
    intro ko n fn k q loc g hu hat hq hi hp hm
    obtain ⟨n', hp'⟩ := hprog r' ru' h1
    obtain ⟨f, g', e1, e2, e3, e4, e5, e6⟩ := rule_run n' h1 (ih ru' h1 (hg r' ru' h1)).1 (fun _ _ => safe_ok h) hi hp hm
    have hd : fn[k]? = some (.call r' ko) := by
      cases v <;> rw [comp] at hat <;> exact hat.head
    exact ⟨loc, g', go_fail hu hd (hq.resolve_left (by simp [Exp.safe])) (.call hp' e1), e2, e3, e4, fun _ _ => rfl⟩
end
end Potion.Greg
