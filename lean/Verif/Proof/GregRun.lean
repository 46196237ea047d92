import Verif.Proof.GregSim
namespace Potion.Greg

/-- The thunks an event stands for. -/
def thunk (gr : Grammar) : Ev → List Thunk
  | .enter r => match gr[r]? with | some ru => if ru.nvars = 0 then [] else [.push ru.nvars] | none => []
  | .leave r => match gr[r]? with | some ru => if ru.nvars = 0 then [] else [.pop ru.nvars] | none => []
  | .set r v => match gr[r]? with | some ru => [.set (offset ru v)] | none => []
  | .act r a b e => match gr[r]? with | some ru => [.act a ru.nvars b e] | none => []

def Out (gr : Grammar) (prog : List (List Ins)) (P : Nat → List Byte → Bool) (inp : List Byte) (fn : List Ins) (S : Nat → Prop) (pc : Nat)
    (loc : Nat → Nat × Nat) (g : G) (okpc q : Nat) : Res → Prop
  | .ok p evs m => ∃ loc' g', Go prog P inp fn pc loc g okpc loc' g' ∧ Inv inp g' ∧ Marked g' m ∧ Ext g g' ∧ (∀ k, ¬ S k → loc' k = loc k) ∧
      g'.pos = p ∧ T g' = T g ++ evs.flatMap (thunk gr)
  | .fail m => ∃ loc' g', Go prog P inp fn pc loc g q loc' g' ∧ Inv inp g' ∧ Marked g' m ∧ Ext g g' ∧ (∀ k, ¬ S k → loc' k = loc k)

theorem T_restore {g g' : G} {p : Nat} (h : Ext g g') : T { g' with pos := p, thunkpos := g.thunkpos } = T g := by
  rw [T, T]
  apply List.map_congr_left
  intro k hk
  exact h.thunks k (List.mem_range.1 hk)

theorem ext_restore {g g' : G} {p : Nat} (h : Ext g g') : Ext g { g' with pos := p, thunkpos := g.thunkpos } :=
  ⟨h.limit, Nat.le_refl _, h.thunks⟩

theorem inv_restore {inp} {g g' : G} (h0 : Inv inp g) (h : Inv inp g') (hx : Ext g g') : Inv inp { g' with pos := g.pos, thunkpos := g.thunkpos } :=
  ⟨h.short, h.lim, h.buf, h.len, Nat.le_trans h0.pos hx.limit, h.b, h.e, h.text, h.thunks, fun k hk a nv b e he => h.acts k (Nat.lt_of_lt_of_le hk hx.thunkpos) a nv b e he⟩

/-- The code of expression `e`, wherever it is put, does what the specification says. -/
def Sim (gr : Grammar) (prog : List (List Ins)) (P : Nat → List Byte → Bool) (inp : List Byte) (ru : Rule) (e : Exp) (pos : Nat) (m : Marks) (res : Res) : Prop :=
  ∀ (ko n : Nat) (fn : List Ins) (k q : Nat) (loc : Nat → Nat × Nat) (g : G), Uniq fn → At fn k (comp ru e ko n).1 →
    (e.safe = true ∨ fn[q]? = some (.label ko)) → Inv inp g → g.pos = pos → Marked g m →
    Out gr prog P inp fn (fun x => n < x ∧ x ≤ (comp ru e ko n).2) k loc g (k + (comp ru e ko n).1.length) q res

def SimAlts (gr : Grammar) (prog : List (List Ins)) (P : Nat → List Byte → Bool) (inp : List Byte) (ru : Rule) (l : Exps) (pos : Nat) (m : Marks) (res : Res) : Prop :=
  ∀ (ko ok n : Nat) (fn : List Ins) (k q : Nat) (loc : Nat → Nat × Nat) (g : G), Uniq fn → At fn k (compAlts ru l ko ok n).1 →
    fn[k + (compAlts ru l ko ok n).1.length]? = some (.label ok) → fn[q]? = some (.label ko) →
    loc ok = (g.pos, g.thunkpos) → ok ≤ n → Inv inp g → g.pos = pos → Marked g m →
    Out gr prog P inp fn (fun x => n < x ∧ x ≤ (compAlts ru l ko ok n).2) k loc g (k + (compAlts ru l ko ok n).1.length) q res

def SimStar (gr : Grammar) (prog : List (List Ins)) (P : Nat → List Byte → Bool) (inp : List Byte) (ru : Rule) (e : Exp) (pos : Nat) (m : Marks) (res : Res) : Prop :=
  ∀ (again out n : Nat) (fn : List Ins) (k : Nat) (loc : Nat → Nat × Nat) (g : G), Uniq fn → At fn k (starCode ru e again out n) →
    out ≤ n → Inv inp g → g.pos = pos → Marked g m →
    Out gr prog P inp fn (fun x => x = out ∨ (n < x ∧ x ≤ (comp ru e out n).2)) k loc g (k + (starCode ru e again out n).length) 0 res

/-- A rule as a function. -/
def RuleRun (gr : Grammar) (prog : List (List Ins)) (P : Nat → List Byte → Bool) (inp : List Byte) (r : Nat) (fn : List Ins) (g : G) : Res → Prop
  | .ok p evs m => ∃ f g', exec prog P inp f fn 0 (fun _ => (0, 0)) g = some (true, g') ∧ Inv inp g' ∧ Marked g' m ∧ Ext g g' ∧
      g'.pos = p ∧ T g' = T g ++ (Ev.enter r :: evs ++ [Ev.leave r]).flatMap (thunk gr)
  | .fail m => ∃ f g', exec prog P inp f fn 0 (fun _ => (0, 0)) g = some (false, g') ∧ Inv inp g' ∧ Marked g' m ∧ Ext g g' ∧
      g'.pos = g.pos ∧ T g' = T g

theorem safe_ok {g P inp r e pos m m'} (h : Eval g P inp r e pos m (.fail m')) : e.safe = false := by
  cases e <;> first | rfl | cases h

theorem compRule_uniq (ru : Rule) (n : Nat) : Uniq (compRule ru n).1 := by
  obtain ⟨h1, h2, h3⟩ := comp_fresh ru ru.body (n+1) (n+1)
  rw [compRule, Uniq]
  dsimp only
  have e1 : labels (if ru.body.safe then [] else [.save 0]) = [] := by split <;> rfl
  have e2 : labels (if ru.nvars = 0 then [] else [.yydo (.push ru.nvars)]) = [] := by split <;> rfl
  have e3 : labels (if ru.nvars = 0 then [] else [.yydo (.pop ru.nvars)]) = [] := by split <;> rfl
  simp only [labels_append, e1, e2, e3, List.nil_append, List.append_nil, labels]
  split
  · simpa [labels] using h2
  · simp only [labels]
    rw [List.nodup_append]
    refine ⟨h2, by simp, ?_⟩
    intro a ha b hb
    have := h3 a ha
    simp at hb; omega

section
variable {gr : Grammar} {prog : List (List Ins)} {P : Nat → List Byte → Bool} {inp : List Byte}

theorem go_exec {fn pc loc g pc' loc' g'} {b : Bool} (h : Go prog P inp fn pc loc g pc' loc' g') (hr : fn[pc']? = some (.ret b)) :
    ∃ f, exec prog P inp f fn pc loc g = some (b, g') := h.fwd 1 _ (by rw [exec]; simp only [hr])

theorem rule_run {r ru pos m res} (n : Nat) (hr : gr[r]? = some ru) (hs : Sim gr prog P inp ru ru.body pos m res)
    (hf : ∀ m', res = .fail m' → ru.body.safe = false)
    {g : G} (hi : Inv inp g) (hp : g.pos = pos) (hm : Marked g m) : RuleRun gr prog P inp r (compRule ru n).1 g res := by
  have hu := compRule_uniq ru n
  generalize hfn : (compRule ru n).1 = fn at hu ⊢
  have hat : At fn 0 ((if ru.body.safe then [] else [.save 0]) ++ ((if ru.nvars = 0 then [] else [.yydo (.push ru.nvars)]) ++ ((comp ru ru.body (n+1) (n+1)).1 ++
    ((if ru.nvars = 0 then [] else [.yydo (.pop ru.nvars)]) ++ .ret true ::
    (if ru.body.safe then [] else [.label (n+1), .restore 0, .ret false]))))) := by
    intro i x hx
    rw [Nat.zero_add, ← hfn, compRule]
    simpa only [List.append_assoc] using hx
  -- saving
  obtain ⟨loc1, go1, hl1⟩ : ∃ loc1, Go prog P inp fn 0 (fun _ => (0,0)) g (0 + (if ru.body.safe then [] else [Ins.save 0]).length) loc1 g ∧
      (ru.body.safe = false → loc1 0 = (g.pos, g.thunkpos)) := by
    cases hb : ru.body.safe
    · rw [hb] at hat
      exact ⟨_, go_save hat.head, fun _ => by simp⟩
    · exact ⟨_, Go.refl, by simp⟩
  have hat := hat.right
  generalize 0 + (if ru.body.safe then [] else [Ins.save 0]).length = k1 at go1 hat
  -- entering
  obtain ⟨g2, go2, hi2, hp2, hm2, hx2, ht2⟩ : ∃ g2, Go prog P inp fn k1 loc1 g (k1 + (if ru.nvars = 0 then [] else [Ins.yydo (.push ru.nvars)]).length) loc1 g2 ∧
      Inv inp g2 ∧ g2.pos = pos ∧ Marked g2 m ∧ Ext g g2 ∧ T g2 = T g ++ thunk gr (.enter r) := by
    by_cases hn : ru.nvars = 0
    · refine ⟨g, ?_, hi, hp, hm, Ext.refl g, ?_⟩
      · rw [if_pos hn]; exact Go.refl
      · simp [thunk, hr, hn]
    · obtain ⟨g2, e1, e2, e3, e4, e5, e6, e7, e8⟩ := yyDo_ok (.push ru.nvars) hi (by simp)
      refine ⟨g2, ?_, e2, by omega, ⟨by rw [e4]; exact hm.1, by rw [e5]; exact hm.2.1, by rw [e6]; exact hm.2.2⟩, e8, ?_⟩
      · rw [if_neg hn] at hat ⊢; exact go_do hat.head e1
      · rw [e7]; simp [thunk, hr, hn]
  have hat := hat.right
  generalize k1 + (if ru.nvars = 0 then [] else [Ins.yydo (.push ru.nvars)]).length = k2 at go2 hat
  have hat3 := hat.right
  have hat4 := hat3.right
  have hret : fn[k2 + (comp ru ru.body (n+1) (n+1)).1.length + (if ru.nvars = 0 then [] else [Ins.yydo (.pop ru.nvars)]).length]? = some (.ret true) := hat4.head
  have hfl : ru.body.safe = false →
    At fn (k2 + (comp ru ru.body (n+1) (n+1)).1.length + (if ru.nvars = 0 then [] else [Ins.yydo (.pop ru.nvars)]).length + 1) [.label (n+1), .restore 0, .ret false] := by
    intro hb
    have := hat4.tail
    rw [hb] at this
    simpa using this
  have hsim := hs (n+1) (n+1) fn k2 (k2 + (comp ru ru.body (n+1) (n+1)).1.length + (if ru.nvars = 0 then [] else [Ins.yydo (.pop ru.nvars)]).length + 1) loc1 g2 hu hat.left
    (by
      cases hb : ru.body.safe
      · right; exact (hfl hb).head
      · left; rfl) hi2 hp2 hm2
  cases res with
  | ok p evs m' =>
    obtain ⟨loc3, g3, go3, hi3, hm3, hx3, hl3, hp3, ht3⟩ := hsim
    obtain ⟨g4, go4, hi4, hp4, hm4, hx4, ht4⟩ : ∃ g4, Go prog P inp fn (k2 + (comp ru ru.body (n+1) (n+1)).1.length) loc3 g3
        (k2 + (comp ru ru.body (n+1) (n+1)).1.length + (if ru.nvars = 0 then [] else [Ins.yydo (.pop ru.nvars)]).length) loc3 g4 ∧
        Inv inp g4 ∧ g4.pos = p ∧ Marked g4 m' ∧ Ext g3 g4 ∧ T g4 = T g3 ++ thunk gr (.leave r) := by
      by_cases hn : ru.nvars = 0
      · refine ⟨g3, ?_, hi3, hp3, hm3, Ext.refl g3, ?_⟩
        · rw [if_pos hn]; exact Go.refl
        · simp [thunk, hr, hn]
      · obtain ⟨g4, e1, e2, e3, e4, e5, e6, e7, e8⟩ := yyDo_ok (.pop ru.nvars) hi3 (by simp)
        refine ⟨g4, ?_, e2, by omega, ⟨by rw [e4]; exact hm3.1, by rw [e5]; exact hm3.2.1, by rw [e6]; exact hm3.2.2⟩, e8, ?_⟩
        · rw [if_neg hn] at hat3 ⊢; exact go_do hat3.head e1
        · rw [e7]; simp [thunk, hr, hn]
    obtain ⟨f, hf⟩ := go_exec (go1.trans (go2.trans (go3.trans go4))) hret
    refine ⟨f, g4, hf, hi4, hm4, hx2.trans (hx3.trans hx4), hp4, ?_⟩
    rw [ht4, ht3, ht2]
    simp
  | fail m' =>
    obtain ⟨loc3, g3, go3, hi3, hm3, hx3, hl3⟩ := hsim
    have hb := hf m' rfl
    have hc := hfl hb
    have hl : loc3 0 = (g.pos, g.thunkpos) := by rw [hl3 0 (by omega), hl1 hb]
    have go4 := (go_label (prog := prog) (P := P) (inp := inp) (loc := loc3) (g := g3) hc.head).trans (go_restore hc.tail.head)
    obtain ⟨f, hf⟩ := go_exec (go1.trans (go2.trans (go3.trans go4))) hc.tail.tail.head
    rw [hl] at hf
    have hx := hx2.trans hx3
    exact ⟨f, _, hf, inv_restore hi hi3 hx, hm3, ext_restore hx, rfl, T_restore hx⟩

end

theorem compAll_ok : ∀ (gr : Grammar) (n r : Nat) (ru : Rule), gr[r]? = some ru → ∃ n', (compAll gr n)[r]? = some (compRule ru n').1
  | [], _, _, _, h => by simp at h
  | x :: gr, n, 0, ru, h => by
    have e : x = ru := by simpa using h
    subst e
    exact ⟨n, by rw [compAll]; simp⟩
  | x :: gr, n, r+1, ru, h => by
    obtain ⟨n', h'⟩ := compAll_ok gr (compRule x n).2 r ru (by simpa using h)
    exact ⟨n', by rw [compAll]; simpa using h'⟩

end Potion.Greg
