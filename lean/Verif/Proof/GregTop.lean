import Verif.Proof.GregVal
namespace Potion.Greg

theorem init_inv {inp : List Byte} (hs : inp.length < YY_BUFFER_START_SIZE) (buf : Nat → Byte) (thunks : Nat → Thunk) (text : List Byte) :
    Inv inp (init buf thunks text) := by
  refine ⟨hs, .inl ⟨rfl, rfl⟩, ?_, Nat.le_refl _, Nat.le_refl _, Nat.le_refl _, Nat.le_refl _, ?_, ?_, ?_⟩
  · intro k hk; exact absurd hk (Nat.not_lt_zero _)
  · show 1 ≤ YY_BUFFER_START_SIZE; decide
  · show 1 ≤ YY_STACK_SIZE; decide
  · intro k hk; exact absurd hk (Nat.not_lt_zero _)

section
variable {gr : Grammar} {P : Nat → List Byte → Bool} {inp : List Byte} {ru : Rule} {r0 : Nat}

/-- What the start rule returns when the grammar gives a result. -/
theorem start_fwd (hr : gr[r0]? = some ru) (hg : ∀ (r : Nat) ru, gr[r]? = some ru → ru.body.Ascii) {g : G} {m : Marks} (hi : Inv inp g) (hm : Marked g m) {res}
    (h : Eval gr P inp r0 ru.body g.pos m res) : ∃ fn, (compAll gr 0)[r0]? = some fn ∧ RuleRun gr (compAll gr 0) P inp r0 fn g res := by
  obtain ⟨n, hn⟩ := compAll_ok gr 0 r0 ru hr
  refine ⟨_, hn, rule_run n hr (sim hg (compAll_ok gr 0) h ru hr (hg r0 ru hr)).1 (fun m' e => ?_) hi rfl hm⟩
  subst e
  exact safe_ok h

theorem start_back (hr : gr[r0]? = some ru) (hg : ∀ (r : Nat) ru, gr[r]? = some ru → ru.body.Ascii ∧ ru.body.Good) {g : G} {m : Marks} (hi : Inv inp g) (hm : Marked g m)
    {fuel ok g'} (h : start gr r0 P fuel inp g = some (ok, g')) : ∃ res, Eval gr P inp r0 ru.body g.pos m res ∧ Inv inp g' ∧
      (match res with
      | .ok p evs m' => ok = true ∧ Marked g' m' ∧ g'.pos = p ∧ T g' = T g ++ (Ev.enter r0 :: evs ++ [Ev.leave r0]).flatMap (thunk gr)
      | .fail m' => ok = false ∧ Marked g' m' ∧ g'.pos = g.pos ∧ T g' = T g) := by
  rw [start] at h
  cases hf : (compAll gr 0)[r0]? with
  | none => rw [hf] at h; simp at h
  | some fn =>
    rw [hf] at h
    obtain ⟨res, hev⟩ := rule_conv hg hr hf hi hm h
    obtain ⟨fn', e1, e2⟩ := start_fwd hr (fun r ru h => (hg r ru h).1) hi hm hev
    rw [hf] at e1
    cases e1
    cases res with
    | ok p evs m' =>
      obtain ⟨f, g2, h1, h2, h3, h4, h5, h6⟩ := e2
      have := exec_det h h1
      cases this
      exact ⟨_, hev, h2, rfl, h3, h5, h6⟩
    | fail m' =>
      obtain ⟨f, g2, h1, h2, h3, h4, h5, h6⟩ := e2
      have := exec_det h h1
      cases this
      exact ⟨_, hev, h2, rfl, h3, h5, h6⟩

theorem text_slice {g : G} (h : Inv inp g) {b e : Nat} (hb : b ≤ g.limit) (he : e ≤ g.limit) (tl : Nat) (ht : 1 ≤ tl) :
    ∃ len, yyText g.buf g.buflen tl b e = some (slice inp b e, len) ∧ 1 ≤ len :=
  text_ok (g := { g with b := b, e := e, textlen := tl }) ⟨h.short, h.lim, h.buf, h.len, h.pos, hb, he, ht, h.thunks, h.acts⟩

theorem done_ok {α : Type} {A : Nat → List Byte → (Nat → α) → α → (Nat → α) × α} (hr : gr[r0]? = some ru)
    (hA : ∀ (r : Nat) ru, gr[r]? = some ru → ru.body.Uses A (Deep gr ru) ru.nvars)
    {g : G} (hi : Inv inp g) {pos m p evs m'} (h : Eval gr P inp r0 ru.body pos m (.ok p evs m'))
    (ht : T g = (Ev.enter r0 :: evs ++ [Ev.leave r0]).flatMap (thunk gr)) (d : D α) (hd : GoodD d) :
    ∃ d', yyDone A g.buf g.buflen (T g) d = some d' ∧ Runs A inp (Ev.enter r0 :: evs ++ [Ev.leave r0]) ([], d.yy) ([], d'.yy) := by
  have hacts : ∀ r' ru' a b e', gr[r']? = some ru' → Ev.act r' a b e' ∈ evs → ∀ tl, 1 ≤ tl → ∃ len, yyText g.buf g.buflen tl b e' = some (slice inp b e', len) ∧ 1 ≤ len := by
    intro r' ru' a b e' h1 h2
    have hm : Thunk.act a ru'.nvars b e' ∈ T g := by
      rw [ht]
      refine List.mem_flatMap.2 ⟨.act r' a b e', by simp [h2], by simp [thunk, h1]⟩
    rw [T, List.mem_map] at hm
    obtain ⟨k, hk1, hk2⟩ := hm
    have := hi.acts k (List.mem_range.1 hk1) _ _ _ _ hk2
    exact text_slice hi this.1 this.2
  have hb := vals_ok (P := P) (buf := g.buf) (buflen := g.buflen) hA h ru hr (hA r0 ru hr) (fun h => h) _ _ _ rfl hacts
  obtain ⟨d', e1, e2, e3, e6, e7, e4, e5⟩ := hb.call hr d [] hd trivial
  refine ⟨d', by rw [ht]; exact e1, ?_⟩
  have := e5 [] [] _ .nil
  rwa [List.append_nil] at this

end
end Potion.Greg
