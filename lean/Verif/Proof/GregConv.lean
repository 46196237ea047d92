import Verif.Proof.GregMain
namespace Potion.Greg

section
variable {gr : Grammar} {prog : List (List Ins)} {P : Nat → List Byte → Bool} {inp : List Byte}

theorem rule_enter {r : Nat} {ru : Rule} {m : Marks} (n : Nat) (hr : gr[r]? = some ru) {g : G} (hi : Inv inp g) (hm : Marked g m) :
    ∃ (k q : Nat) (loc1 : Nat → Nat × Nat) (g2 : G), Go prog P inp (compRule ru n).1 0 (fun _ => (0, 0)) g k loc1 g2 ∧ At (compRule ru n).1 k (comp ru ru.body (n+1) (n+1)).1 ∧
      Inv inp g2 ∧ g2.pos = g.pos ∧ Marked g2 m ∧ (ru.body.safe = true ∨ (compRule ru n).1[q]? = some (Ins.label (n+1))) := by
  generalize hfn : (compRule ru n).1 = fn
  have hat : At fn 0 ((if ru.body.safe then [] else [.save 0]) ++ ((if ru.nvars = 0 then [] else [.yydo (.push ru.nvars)]) ++ ((comp ru ru.body (n+1) (n+1)).1 ++
    ((if ru.nvars = 0 then [] else [.yydo (.pop ru.nvars)]) ++ .ret true ::
    (if ru.body.safe then [] else [.label (n+1), .restore 0, .ret false]))))) := by
    intro i x hx
    rw [Nat.zero_add, ← hfn, compRule]
    simpa only [List.append_assoc] using hx
  obtain ⟨loc1, go1⟩ : ∃ loc1, Go prog P inp fn 0 (fun _ => (0,0)) g (0 + (if ru.body.safe then [] else [Ins.save 0]).length) loc1 g := by
    cases hb : ru.body.safe
    · rw [hb] at hat
      exact ⟨_, go_save hat.head⟩
    · exact ⟨_, Go.refl⟩
  have hat := hat.right
  generalize 0 + (if ru.body.safe then [] else [Ins.save 0]).length = k1 at go1 hat
  obtain ⟨g2, go2, hi2, hp2, hm2⟩ : ∃ g2, Go prog P inp fn k1 loc1 g (k1 + (if ru.nvars = 0 then [] else [Ins.yydo (.push ru.nvars)]).length) loc1 g2 ∧
      Inv inp g2 ∧ g2.pos = g.pos ∧ Marked g2 m := by
    by_cases hn : ru.nvars = 0
    · refine ⟨g, ?_, hi, rfl, hm⟩
      rw [if_pos hn]; exact Go.refl
    · obtain ⟨g2, e1, e2, e3, e4, e5, e6, e7, e8⟩ := yyDo_ok (.push ru.nvars) hi (by simp)
      refine ⟨g2, ?_, e2, by omega, ⟨by rw [e4]; exact hm.1, by rw [e5]; exact hm.2.1, by rw [e6]; exact hm.2.2⟩⟩
      rw [if_neg hn] at hat ⊢; exact go_do hat.head e1
  have hat := hat.right
  refine ⟨_, k1 + (if ru.nvars = 0 then [] else [Ins.yydo (.push ru.nvars)]).length + (comp ru ru.body (n+1) (n+1)).1.length +
      (if ru.nvars = 0 then [] else [Ins.yydo (.pop ru.nvars)]).length + 1, loc1, g2, go1.trans go2, hat.left, hi2, hp2, hm2, ?_⟩
  · cases hb : ru.body.safe
    · right
      have := hat.right.right.tail
      rw [hb] at this
      exact this.head
    · left; rfl

theorem exec_succ {f fn pc loc g R} (h : exec prog P inp f fn pc loc g = some R) : ∃ f', f = f' + 1 := by
  cases f with
  | zero => simp [exec] at h
  | succ f => exact ⟨f, rfl⟩

section
variable (hg : ∀ (r : Nat) ru, gr[r]? = some ru → ru.body.Ascii ∧ ru.body.Good)
  (hprog : ∀ (r : Nat) ru, gr[r]? = some ru → ∃ n, prog[r]? = some (compRule ru n).1)
  (hlen : prog.length = gr.length)

/-- If the code gets from here to the end, then there is a derivation. -/
def Conv (gr : Grammar) (prog : List (List Ins)) (P : Nat → List Byte → Bool) (inp : List Byte) (f : Nat) (e : Exp) : Prop :=
  ∀ r ru, gr[r]? = some ru → e.Ascii → e.Good → ∀ (ko n : Nat) (fn : List Ins) (k q : Nat) (loc : Nat → Nat × Nat) (g : G) (m : Marks) R, Uniq fn → At fn k (comp ru e ko n).1 →
    (e.safe = true ∨ fn[q]? = some (.label ko)) → Inv inp g → Marked g m → exec prog P inp f fn k loc g = some R →
    ∃ res, Eval gr P inp r e g.pos m res
def ConvAlts (gr : Grammar) (prog : List (List Ins)) (P : Nat → List Byte → Bool) (inp : List Byte) (f : Nat) (l : Exps) : Prop :=
  ∀ r ru, gr[r]? = some ru → l.Ascii → l.Good → l ≠ .nil → ∀ (ko ok n : Nat) (fn : List Ins) (k q : Nat) (loc : Nat → Nat × Nat) (g : G) (m : Marks) R, Uniq fn →
    At fn k (compAlts ru l ko ok n).1 → fn[q]? = some (.label ko) →
    loc ok = (g.pos, g.thunkpos) → ok ≤ n → Inv inp g → Marked g m → exec prog P inp f fn k loc g = some R →
    ∃ res, Eval gr P inp r (.alt l) g.pos m res
def ConvSeq (gr : Grammar) (prog : List (List Ins)) (P : Nat → List Byte → Bool) (inp : List Byte) (f : Nat) (l : Exps) : Prop :=
  ∀ r ru, gr[r]? = some ru → l.Ascii → l.Good → ∀ (ko n : Nat) (fn : List Ins) (k q : Nat) (loc : Nat → Nat × Nat) (g : G) (m : Marks) R, Uniq fn → At fn k (compSeq ru l ko n).1 →
    fn[q]? = some (.label ko) → Inv inp g → Marked g m → exec prog P inp f fn k loc g = some R →
    ∃ res, Eval gr P inp r (.seq l) g.pos m res
def ConvStar (gr : Grammar) (prog : List (List Ins)) (P : Nat → List Byte → Bool) (inp : List Byte) (f : Nat) (e : Exp) : Prop :=
  ∀ r ru, gr[r]? = some ru → e.Ascii → e.Good → ∀ (again out n : Nat) (fn : List Ins) (k : Nat) (loc : Nat → Nat × Nat) (g : G) (m : Marks) R, Uniq fn →
    At fn k (starCode ru e again out n) → out ≤ n → Inv inp g → Marked g m → exec prog P inp f fn k loc g = some R →
    ∃ res, Eval gr P inp r (.star e) g.pos m res

include hg hprog in
theorem conv_star_step {f : Nat} {e : Exp} (he : ∀ f' ≤ f, Conv gr prog P inp f' e) (hf : ∀ f' < f, ConvStar gr prog P inp f' e) : ConvStar gr prog P inp f e := by
  intro r ru hr ha hgd again out n fn k loc g m R hu hat hle hi hm hx
  have hat0 := hat
  rw [starCode] at hat
  have h2 : At fn (k+1+1) ((comp ru e out n).1 ++ [.goto again, .label out, .restore out]) := hat.tail.tail
  have hr1 := h2.right
  obtain ⟨f1, rfl⟩ := exec_succ hx
  have hx1 : exec prog P inp f1 fn (k+1) loc g = some R := by
    rw [exec] at hx; simp only [hat.head] at hx; exact hx
  have hx2 := (go_save (prog := prog) (P := P) (inp := inp) (loc := loc) (g := g) hat.tail.head).back _ _ hx1
  obtain ⟨res, hev⟩ := he f1 (by omega) r ru hr ha hgd out n fn (k+1+1) (k + 1 + 1 + (comp ru e out n).1.length + 1) _ g m R hu h2.left (.inr hr1.tail.head) hi hm hx2
  have hs := (sim (fun r ru h => (hg r ru h).1) hprog hev ru hr ha).1 out n fn (k+1+1) (k + 1 + 1 + (comp ru e out n).1.length + 1) (fun x => if x = out then (g.pos, g.thunkpos) else loc x) g hu h2.left (.inr hr1.tail.head) hi rfl hm
  cases res with
  | fail m' => exact ⟨_, .starEnd hev⟩
  | ok p evs m' =>
    obtain ⟨loc', g', k1, k2, k3, k4, k5, k6, k7⟩ := hs
    have hx3 := (go_goto (prog := prog) (P := P) (inp := inp) (loc := loc') (g := g') hu hr1.head hat.head).back _ _ (k1.back _ _ hx2)
    obtain ⟨res2, hev2⟩ := hf f1 (by omega) r ru hr ha hgd again out n fn k loc' g' m' R hu hat0 hle k2 k3 hx3
    rw [k6] at hev2
    cases res2 with
    | fail m2 => cases hev2
    | ok p2 ev2 m2 => exact ⟨_, .starMore hev hev2⟩

variable {f : Nat} (hF : ∀ f' < f, ∀ e, Conv gr prog P inp f' e) (hFs : ∀ f' < f, ∀ e, ConvStar gr prog P inp f' e)

theorem conv_name (hlen : prog.length = gr.length) (hg : ∀ (r : Nat) ru, gr[r]? = some ru → ru.body.Ascii ∧ ru.body.Good)
    (hprog : ∀ (r : Nat) ru, gr[r]? = some ru → ∃ n, prog[r]? = some (compRule ru n).1) (hF : ∀ f' < f, ∀ e, Conv gr prog P inp f' e)
    (r' : Nat) (v : Option Nat) : Conv gr prog P inp f (.name r' v) := by
  intro r ru hr ha hgd ko n fn k q loc g m R hu hat hq hi hm hx
  have hd : fn[k]? = some (.call r' ko) := by
    cases v <;> rw [comp] at hat <;> exact hat.head
  obtain ⟨f1, rfl⟩ := exec_succ hx
  rw [exec] at hx
  simp only [hd] at hx
  cases hp : prog[r']? with
  | none => rw [hp] at hx; simp at hx
  | some fn' =>
    rw [hp] at hx
    have hl : r' < gr.length := by
      have := (List.getElem?_eq_some_iff.1 hp).1; omega
    have hr' : gr[r']? = some gr[r'] := List.getElem?_eq_getElem hl
    obtain ⟨n', hn'⟩ := hprog r' _ hr'
    rw [hn'] at hp
    cases hp
    cases hx1 : exec prog P inp f1 (compRule gr[r'] n').1 0 (fun _ => (0, 0)) g with
    | none => simp only [hx1] at hx; simp at hx
    | some R1 =>
      obtain ⟨k2, q2, loc2, g2, e1, e2, e3, e4, e5, e6⟩ := rule_enter (prog := prog) (P := P) n' hr' hi hm
      obtain ⟨res, hev⟩ := hF f1 (by omega) _ r' _ hr' (hg r' _ hr').1 (hg r' _ hr').2 _ _ _ k2 q2 loc2 g2 m R1 (compRule_uniq _ _) e2 e6 e3 e5 (e1.back _ _ hx1)
      rw [e4] at hev
      cases res with
      | fail m' => exact ⟨_, .nameFail hr' hev⟩
      | ok p evs m' => exact ⟨_, .nameOk hr' hev⟩

set_option linter.unusedSectionVars false
include hg hprog hlen hF hFs

mutual
theorem conv_exp : ∀ e, Conv gr prog P inp f e
  | .any => by
    intro r ru hr ha hgd ko n fn k q loc g m R hu hat hq hi hm hx
    cases h : inp[g.pos]? with
    | none => exact ⟨_, .anyFail h⟩
    | some c => exact ⟨_, .anyOk h⟩
  | .chr c => by
    intro r ru hr ha hgd ko n fn k q loc g m R hu hat hq hi hm hx
    by_cases h : inp[g.pos]? = some c
    · exact ⟨_, .chrOk h⟩
    · exact ⟨_, .chrFail h⟩
  | .str s => by
    intro r ru hr ha hgd ko n fn k q loc g m R hu hat hq hi hm hx
    by_cases h : s <+: inp.drop g.pos
    · exact ⟨_, .strOk h⟩
    · exact ⟨_, .strFail h⟩
  | .cls t => by
    intro r ru hr ha hgd ko n fn k q loc g m R hu hat hq hi hm hx
    rw [Exp.Good] at hgd
    obtain ⟨p, hp⟩ := hgd
    by_cases h : ∃ c, inp[g.pos]? = some c ∧ p c
    · obtain ⟨c, h1, h2⟩ := h
      exact ⟨_, .clsOk hp h1 h2⟩
    · exact ⟨_, .clsFail hp fun c h1 h2 => h ⟨c, h1, h2⟩⟩
  | .name r' v => conv_name hlen hg hprog hF r' v
  | .act a => by
    intro r ru hr ha hgd ko n fn k q loc g m R hu hat hq hi hm hx
    exact ⟨_, .act⟩
  | .pred p => by
    intro r ru hr ha hgd ko n fn k q loc g m R hu hat hq hi hm hx
    cases h : P p (slice inp m.b m.e) with
    | true => exact ⟨_, .predOk h⟩
    | false => exact ⟨_, .predFail h⟩
  | .open => by
    intro r ru hr ha hgd ko n fn k q loc g m R hu hat hq hi hm hx
    exact ⟨_, .open⟩
  | .close => by
    intro r ru hr ha hgd ko n fn k q loc g m R hu hat hq hi hm hx
    exact ⟨_, .close⟩
  | .err e j => by
    intro r ru hr ha hgd ko n fn k q loc g m R hu hat hq hi hm hx
    rw [comp_err] at hat
    obtain ⟨res, hev⟩ := conv_exp e r ru hr (by simpa [Exp.Ascii] using ha) (by simpa [Exp.Good] using hgd) _ _ fn k _ loc g m R hu hat.left (.inr hat.right.tail.head) hi hm hx
    cases res with
    | fail m' => exact ⟨_, .errFail hev⟩
    | ok p evs m' => exact ⟨_, .errOk hev⟩
  | .alt l => by
    intro r ru hr ha hgd ko n fn k q loc g m R hu hat hq hi hm hx
    rw [comp_alt] at hat
    have h2 : At fn (k+1) ((compAlts ru l ko (n+1) (n+1)).1 ++ [.label (n+1)]) := hat.tail
    have hgd' : l ≠ .nil ∧ l.Good := by simpa [Exp.Good] using hgd
    exact (conv_list l).1 r ru hr (by simpa [Exp.Ascii] using ha) hgd'.2 hgd'.1 ko (n+1) (n+1) fn (k+1) q _ g m R hu h2.left (hq.resolve_left (by simp [Exp.safe])) (by simp) (by omega) hi hm
      ((go_save hat.head).back _ _ hx)
  | .seq l => by
    intro r ru hr ha hgd ko n fn k q loc g m R hu hat hq hi hm hx
    rw [comp] at hat
    exact (conv_list l).2 r ru hr (by simpa [Exp.Ascii] using ha) (by simpa [Exp.Good] using hgd) ko n fn k q loc g m R hu hat (hq.resolve_left (by simp [Exp.safe])) hi hm hx
  | .peek e => by
    intro r ru hr ha hgd ko n fn k q loc g m R hu hat hq hi hm hx
    rw [comp_peek] at hat
    have h2 : At fn (k+1) ((comp ru e ko (n+1)).1 ++ [.restore (n+1)]) := hat.tail
    obtain ⟨res, hev⟩ := conv_exp e r ru hr (by simpa [Exp.Ascii] using ha) (by simpa [Exp.Good] using hgd) _ _ fn _ _ _ g m R hu h2.left
      (.inr (hq.resolve_left (by simp [Exp.safe]))) hi hm ((go_save hat.head).back _ _ hx)
    cases res with
    | fail m' => exact ⟨_, .peekFail hev⟩
    | ok p evs m' => exact ⟨_, .peekOk hev⟩
  | .not e => by
    intro r ru hr ha hgd ko n fn k q loc g m R hu hat hq hi hm hx
    rw [comp_not] at hat
    have h2 : At fn (k+1) ((comp ru e (n+1) (n+1)).1 ++ [.goto ko, .label (n+1), .restore (n+1)]) := hat.tail
    obtain ⟨res, hev⟩ := conv_exp e r ru hr (by simpa [Exp.Ascii] using ha) (by simpa [Exp.Good] using hgd) _ _ fn _ _ _ g m R hu h2.left
      (.inr h2.right.tail.head) hi hm ((go_save hat.head).back _ _ hx)
    cases res with
    | fail m' => exact ⟨_, .notOk hev⟩
    | ok p evs m' => exact ⟨_, .notFail hev⟩
  | .opt e => by
    intro r ru hr ha hgd ko n fn k q loc g m R hu hat hq hi hm hx
    rw [comp_opt] at hat
    have h2 : At fn (k+1) ((comp ru e (n+2) (n+2)).1 ++ [.goto (n+1), .label (n+2), .restore (n+2), .label (n+1)]) := hat.tail
    obtain ⟨res, hev⟩ := conv_exp e r ru hr (by simpa [Exp.Ascii] using ha) (by simpa [Exp.Good] using hgd) _ _ fn _ _ _ g m R hu h2.left
      (.inr h2.right.tail.head) hi hm ((go_save hat.head).back _ _ hx)
    cases res with
    | fail m' => exact ⟨_, .optNone hev⟩
    | ok p evs m' => exact ⟨_, .optSome hev⟩
  | .star e => by
    intro r ru hr ha hgd ko n fn k q loc g m R hu hat hq hi hm hx
    rw [comp_star] at hat
    have hc := conv_exp e
    have hst : ConvStar gr prog P inp f e := conv_star_step hg hprog (fun f' hf' => by
      rcases Nat.lt_or_eq_of_le hf' with h | h
      · exact hF f' h e
      · rw [h]; exact hc) (fun f' hf' => hFs f' hf' e)
    exact hst r ru hr (by simpa [Exp.Ascii] using ha) (by simpa [Exp.Good] using hgd) _ _ _ fn k loc g m R hu hat (by omega) hi hm hx
  | .plus e => by
    intro r ru hr ha hgd ko n fn k q loc g m R hu hat hq hi hm hx
    rw [comp_plus] at hat
    dsimp only at hat
    have ha' : e.Ascii := by simpa [Exp.Ascii] using ha
    have hgd' : e.Good := by simpa [Exp.Good] using hgd
    have hq' := hq.resolve_left (by simp [Exp.safe])
    have hfr1 := comp_fresh ru e ko (n+2)
    have hc := conv_exp e
    have hst : ConvStar gr prog P inp f e := conv_star_step hg hprog (fun f' hf' => by
      rcases Nat.lt_or_eq_of_le hf' with h | h
      · exact hF f' h e
      · rw [h]; exact hc) (fun f' hf' => hFs f' hf' e)
    obtain ⟨res, hev⟩ := hc r ru hr ha' hgd' _ _ fn k q loc g m R hu hat.left (.inr hq') hi hm hx
    have hs := (sim (fun r ru h => (hg r ru h).1) hprog hev ru hr ha').1 ko (n+2) fn k q loc g hu hat.left (.inr hq') hi rfl hm
    cases res with
    | fail m' => exact ⟨_, .plusFail hev⟩
    | ok p evs m' =>
      obtain ⟨loc', g', k1, k2, k3, k4, k5, k6, k7⟩ := hs
      obtain ⟨res2, hev2⟩ := hst r ru hr ha' hgd' _ _ _ fn _ loc' g' m' R hu hat.right hfr1.1 k2 k3 (k1.back _ _ hx)
      rw [k6] at hev2
      cases res2 with
      | fail m2 => cases hev2
      | ok p2 ev2 m2 => exact ⟨_, .plusOk hev hev2⟩
theorem conv_list : ∀ l, ConvAlts gr prog P inp f l ∧ ConvSeq gr prog P inp f l
  | .nil => by
    refine ⟨fun r ru hr ha hgd hne => absurd rfl hne, ?_⟩
    intro r ru hr ha hgd ko n fn k q loc g m R hu hat hq hi hm hx
    exact ⟨_, .seqNil⟩
  | .cons e l => by
    have hc := conv_exp e
    have hl := conv_list l
    constructor
    · intro r ru hr ha hgd hne ko ok n fn k q loc g m R hu hat hq hlo hle hi hm hx
      rw [Exps.Ascii] at ha
      rw [Exps.Good] at hgd
      cases l with
      | nil =>
        rw [compAlts_one] at hat
        obtain ⟨res, hev⟩ := hc r ru hr ha.1 hgd.1 _ _ fn k q loc g m R hu hat (.inr hq) hi hm hx
        cases res with
        | fail m' => exact ⟨_, .altFail hev⟩
        | ok p evs m' => exact ⟨_, .altOk hev⟩
      | cons e' l =>
        rw [compAlts_more] at hat
        dsimp only at hat
        have hr1 := hat.right
        have hfr1 := comp_fresh ru e (n+1) (n+1)
        obtain ⟨res, hev⟩ := hc r ru hr ha.1 hgd.1 _ _ fn k _ loc g m R hu hat.left (.inr hr1.tail.head) hi hm hx
        have hs := (sim (fun r ru h => (hg r ru h).1) hprog hev ru hr ha.1).1 (n+1) (n+1) fn k _ loc g hu hat.left (.inr hr1.tail.head) hi rfl hm
        cases res with
        | ok p evs m' => exact ⟨_, .altOk hev⟩
        | fail m' =>
          obtain ⟨loc', g', h1, h2, h3, h4, h5⟩ := hs
          obtain ⟨g2, b1, b2, b3, b4, b5, b6, b7⟩ := go_back (prog := prog) (P := P) (loc' := loc') hi hr1.tail.tail.head h2 h4 (by rw [h5 ok (by omega), hlo])
          have hgo := h1.trans ((go_label hr1.tail.head).trans b1)
          obtain ⟨res2, hev2⟩ := hl.1 r ru hr ha.2 hgd.2 (by simp) ko ok _ fn _ q loc' g2 m' R hu hr1.tail.tail.tail hq (by rw [h5 ok (by omega), hlo, b4, b5]) (by have := hfr1.1; omega) b2 (b7 _ h3)
            (hgo.back _ _ hx)
          rw [b4] at hev2
          exact ⟨_, .altNext hev hev2⟩
    · intro r ru hr ha hgd ko n fn k q loc g m R hu hat hq hi hm hx
      rw [Exps.Ascii] at ha
      rw [Exps.Good] at hgd
      rw [compSeq_cons] at hat
      obtain ⟨res, hev⟩ := hc r ru hr ha.1 hgd.1 _ _ fn k q loc g m R hu hat.left (.inr hq) hi hm hx
      have hs := (sim (fun r ru h => (hg r ru h).1) hprog hev ru hr ha.1).1 ko n fn k q loc g hu hat.left (.inr hq) hi rfl hm
      cases res with
      | fail m' => exact ⟨_, .seqFail hev⟩
      | ok p evs m' =>
        obtain ⟨loc', g', k1, k2, k3, k4, k5, k6, k7⟩ := hs
        obtain ⟨res2, hev2⟩ := hl.2 r ru hr ha.2 hgd.2 ko _ fn _ q loc' g' m' R hu hat.right hq k2 k3 (k1.back _ _ hx)
        rw [k6] at hev2
        cases res2 with
        | fail m2 => exact ⟨_, .seqFail2 hev hev2⟩
        | ok p2 ev2 m2 => exact ⟨_, .seqOk hev hev2⟩
end
omit hF hFs

theorem conv : ∀ (f : Nat) (e : Exp), Conv gr prog P inp f e ∧ ConvStar gr prog P inp f e := by
  intro f
  induction f using Nat.strongRecOn with
  | _ f ih =>
    have h1 : ∀ e, Conv gr prog P inp f e := conv_exp hg hprog hlen (fun f' h e => (ih f' h e).1) (fun f' h e => (ih f' h e).2)
    intro e
    refine ⟨h1 e, conv_star_step hg hprog (fun f' hf' => ?_) (fun f' hf' => (ih f' hf' e).2)⟩
    rcases Nat.lt_or_eq_of_le hf' with h | h
    · exact (ih f' h e).1
    · rw [h]; exact h1 e

end
end

theorem compAll_length : ∀ (gr : Grammar) (n : Nat), (compAll gr n).length = gr.length
  | [], _ => rfl
  | ru :: gr, n => by rw [compAll]; simp [compAll_length gr]

/-- A rule that returns matches or fails according to the grammar. -/
theorem rule_conv {gr : Grammar} {P : Nat → List Byte → Bool} {inp : List Byte} (hg : ∀ (r : Nat) ru, gr[r]? = some ru → ru.body.Ascii ∧ ru.body.Good)
    {r : Nat} {ru : Rule} (hr : gr[r]? = some ru) {fn} (hfn : (compAll gr 0)[r]? = some fn) {f g m R} (hi : Inv inp g) (hm : Marked g m)
    (hx : exec (compAll gr 0) P inp f fn 0 (fun _ => (0, 0)) g = some R) : ∃ res, Eval gr P inp r ru.body g.pos m res := by
  obtain ⟨n, hn⟩ := compAll_ok gr 0 r ru hr
  rw [hn] at hfn
  cases hfn
  obtain ⟨k2, q2, loc2, g2, e1, e2, e3, e4, e5, e6⟩ := rule_enter (prog := compAll gr 0) (P := P) n hr hi hm
  obtain ⟨res, hev⟩ := (conv hg (compAll_ok gr 0) (compAll_length gr 0) f ru.body).1 r _ hr (hg r _ hr).1 (hg r _ hr).2 _ _ _ k2 q2 loc2 g2 m R (compRule_uniq _ _) e2 e6 e3 e5 (e1.back _ _ hx)
  rw [e4] at hev
  exact ⟨res, hev⟩

end Potion.Greg
