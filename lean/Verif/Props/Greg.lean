import Verif.Proof.GregPeg2
import Verif.Proof.GregCons
import Verif.Proof.GregDet
import Verif.Props.Syntax
/-!
# C64, C65, C66: the generated parsers

`start gr r P fuel inp (init ..)` runs the C function greg generates for rule `r` of grammar `gr`, in a fresh parser, on the text `inp`; `parse` also runs
the actions. `Eval` (Spec/Greg.lean) says what a grammar matches and which actions are called for; `Runs` what it means to run them.
-/
namespace Potion.Greg

/-- The classes and characters of the grammar are those greg can handle. -/
def WellMade (gr : Grammar) : Prop := ∀ (r : Nat) ru, gr[r]? = some ru → ru.body.Ascii ∧ ru.body.Good

section
variable {gr : Grammar} {r : Nat} {ru : Rule} {P : Nat → List Byte → Bool} {inp : List Byte} (buf : Nat → Byte) (thunks : Nat → Thunk) (text : List Byte)

theorem init_marked : Marked (init buf thunks text) ⟨0, 0, []⟩ := ⟨rfl, rfl, rfl⟩

/-- The function returns 1, with the position at `p`, exactly if the grammar matches the text up to `p`. -/
theorem C64_accepts (hw : WellMade gr) (hr : gr[r]? = some ru) (hs : inp.length < YY_BUFFER_START_SIZE) (p : Nat) :
    (∃ fuel g', start gr r P fuel inp (init buf thunks text) = some (true, g') ∧ g'.pos = p) ↔
    ∃ evs m', Eval gr P inp r ru.body 0 ⟨0, 0, []⟩ (.ok p evs m') := by
  have hi := init_inv hs buf thunks text
  constructor
  · rintro ⟨fuel, g', h, hp⟩
    obtain ⟨res, h1, h2, h3⟩ := start_back hr hw hi (init_marked buf thunks text) h
    cases res with
    | ok p' evs m' => obtain ⟨_, _, e, _⟩ := h3; rw [hp] at e; subst e; exact ⟨evs, m', h1⟩
    | fail m' => cases h3.1
  · rintro ⟨evs, m', h⟩
    obtain ⟨fn, h1, f, g', h2, h3, h4, h5, h6, h7⟩ := start_fwd hr (fun r ru h => (hw r ru h).1) hi (init_marked buf thunks text) h
    exact ⟨f, g', by rw [start, h1]; exact h2, h6⟩

/-- It returns 0 exactly if the grammar does not match; the position is then where it was, no action is left over. -/
theorem C64_rejects (hw : WellMade gr) (hr : gr[r]? = some ru) (hs : inp.length < YY_BUFFER_START_SIZE) :
    (∃ fuel g', start gr r P fuel inp (init buf thunks text) = some (false, g') ∧ g'.pos = 0 ∧ g'.thunkpos = 0) ↔
    ∃ m', Eval gr P inp r ru.body 0 ⟨0, 0, []⟩ (.fail m') := by
  have hi := init_inv hs buf thunks text
  constructor
  · rintro ⟨fuel, g', h, hp⟩
    obtain ⟨res, h1, h2, h3⟩ := start_back hr hw hi (init_marked buf thunks text) h
    cases res with
    | ok p' evs m' => cases h3.1
    | fail m' => exact ⟨m', h1⟩
  · rintro ⟨m', h⟩
    obtain ⟨fn, h1, f, g', h2, h3, h4, h5, h6, h7⟩ := start_fwd hr (fun r ru h => (hw r ru h).1) hi (init_marked buf thunks text) h
    refine ⟨f, g', by rw [start, h1]; exact h2, h6, ?_⟩
    have : (T g').length = 0 := by rw [h7]; rfl
    simpa [T] using this

/-- A grammar says one thing about a text. -/
theorem C64_unambiguous {res res'} (h : Eval gr P inp r ru.body 0 ⟨0, 0, []⟩ res) (h' : Eval gr P inp r ru.body 0 ⟨0, 0, []⟩ res') : res = res' :=
  h.det _ h'

/-- After a successful parse, `$$` and the variables have been computed by exactly the actions of the parts that matched, in the order of the text,
each with the text marked before it and the variables of its own rule. -/
theorem C64_actions {α : Type} {A : Nat → List Byte → (Nat → α) → α → (Nat → α) × α} (hw : WellMade gr) (hr : gr[r]? = some ru)
    (hA : ∀ (r : Nat) ru, gr[r]? = some ru → ru.body.Uses A (Deep gr ru) ru.nvars) (hs : inp.length < YY_BUFFER_START_SIZE)
    {fuel vals yy ok g' d'} (h : parse gr r P A fuel inp (init buf thunks text) vals yy = some (ok, g', d')) :
    (ok = true ∧ ∃ evs m', Eval gr P inp r ru.body 0 ⟨0, 0, []⟩ (.ok g'.pos evs m') ∧ g'.errs = m'.errs ∧
      Runs A inp (Ev.enter r :: evs ++ [Ev.leave r]) ([], yy) ([], d'.yy)) ∨
    (ok = false ∧ (∃ m', Eval gr P inp r ru.body 0 ⟨0, 0, []⟩ (.fail m') ∧ g'.errs = m'.errs) ∧ d'.yy = yy) := by
  have hi := init_inv hs buf thunks text
  rw [parse] at h
  split at h
  · cases h
  next ok1 g1 hst =>
  obtain ⟨res, h1, h2, h3⟩ := start_back hr hw hi (init_marked buf thunks text) hst
  cases res with
  | ok p evs m' =>
    obtain ⟨rfl, hm, rfl, ht⟩ := h3
    have ht : T g1 = (Ev.enter r :: evs ++ [Ev.leave r]).flatMap (thunk gr) := by
      rw [ht]; rfl
    obtain ⟨d1, e1, e2⟩ := done_ok hr hA h2 h1 ht { vals := vals, valslen := YY_STACK_SIZE, val := 0, yy := yy, text := g1.text, textlen := g1.textlen }
      ⟨Nat.zero_le _, by show 1 ≤ YY_STACK_SIZE; decide, h2.text⟩
    rw [T] at e1
    simp only [if_true, e1] at h
    cases h
    exact .inl ⟨rfl, evs, m', h1, hm.2.2, e2⟩
  | fail m' =>
    obtain ⟨rfl, hm, _⟩ := h3
    simp only [Bool.false_eq_true, if_false] at h
    cases h
    exact .inr ⟨rfl, ⟨m', h1, hm.2.2⟩, rfl⟩

/-- Without left recursion and without repetition of what may be empty, parsing returns on every text, and no array is accessed outside its bounds. -/
theorem C65_returns {α : Type} {A : Nat → List Byte → (Nat → α) → α → (Nat → α) × α} {nul rank} (he : Ends gr nul rank) (hw : WellMade gr) (hr : gr[r]? = some ru)
    (hA : ∀ (r : Nat) ru, gr[r]? = some ru → ru.body.Uses A (Deep gr ru) ru.nvars) (hs : inp.length < YY_BUFFER_START_SIZE) (vals : Nat → α) (yy : α) :
    ∃ f0 res, ∀ f, f0 ≤ f → parse gr r P A f inp (init buf thunks text) vals yy = some res := by
  have hi := init_inv hs buf thunks text
  obtain ⟨res, h⟩ := eval_total (P := P) (inp := inp) he (fun r ru h => (hw r ru h).2) _ 0 rfl (Nat.zero_le _) ru.body (he.hfine r ru hr) (hw r ru hr).2 r ⟨0, 0, []⟩
  obtain ⟨fn, h1, h2⟩ := start_fwd hr (fun r ru h => (hw r ru h).1) hi (init_marked buf thunks text) h
  cases res with
  | ok p evs m' =>
    obtain ⟨f0, g1, e1, e2, e3, e4, e5, e6⟩ := h2
    have ht : T g1 = (Ev.enter r :: evs ++ [Ev.leave r]).flatMap (thunk gr) := by rw [e6]; rfl
    obtain ⟨d1, x1, x2⟩ := done_ok hr hA e2 h ht { vals := vals, valslen := YY_STACK_SIZE, val := 0, yy := yy, text := g1.text, textlen := g1.textlen }
      ⟨Nat.zero_le _, by show 1 ≤ YY_STACK_SIZE; decide, e2.text⟩
    rw [T] at x1
    refine ⟨f0, (true, g1, d1), fun f hf => ?_⟩
    have hst : start gr r P f inp (init buf thunks text) = some (true, g1) := by rw [start, h1]; exact exec_le _ _ _ hf e1
    rw [parse, hst]
    simp only [if_true, x1]
  | fail m' =>
    obtain ⟨f0, g1, e1, e2, e3, e4, e5, e6⟩ := h2
    refine ⟨f0, (false, g1, { vals := vals, valslen := YY_STACK_SIZE, val := 0, yy := yy, text := g1.text, textlen := g1.textlen }), fun f hf => ?_⟩
    have hst : start gr r P f inp (init buf thunks text) = some (false, g1) := by rw [start, h1]; exact exec_le _ _ _ hf e1
    rw [parse, hst]
    rfl

/-- Whatever returns has a derivation. -/
theorem no_return (hw : WellMade gr) (hr : gr[r]? = some ru) (hs : inp.length < YY_BUFFER_START_SIZE) (h : ∀ res, ¬ Eval gr P inp r ru.body 0 ⟨0, 0, []⟩ res) (fuel : Nat) :
    start gr r P fuel inp (init buf thunks text) = none := by
  cases hst : start gr r P fuel inp (init buf thunks text) with
  | none => rfl
  | some x =>
    obtain ⟨ok, g'⟩ := x
    obtain ⟨res, h1, _⟩ := start_back hr hw (init_inv hs buf thunks text) (init_marked buf thunks text) hst
    exact absurd h1 (h res)
end

/-! ### Potion's grammar -/

theorem potion_made : WellMade potionGrammar := chkAll_good potion_chk

section
variable {P : Nat → List Byte → Bool} {inp : List Byte} (buf : Nat → Byte) (thunks : Nat → Thunk) (text : List Byte)

/-- The parser of potion returns on every text shorter than its buffer, from every rule, whatever the actions do with their variables; all accesses are inside the arrays. -/
theorem C65_potion {α : Type} {A : Nat → List Byte → (Nat → α) → α → (Nat → α) × α}
    (hA : ∀ (r : Nat) ru, potionGrammar[r]? = some ru → ∀ a, a ∈ ru.body.acts → Local A ru.nvars a) (hs : inp.length < YY_BUFFER_START_SIZE)
    (r : Nat) (hr : r < potionGrammar.length) (vals : Nat → α) (yy : α) :
    ∃ f0 res, ∀ f, f0 ≤ f → parse potionGrammar r P A f inp (init buf thunks text) vals yy = some res :=
  C65_returns buf thunks text (chkAll_ends potion_chk) potion_made (List.getElem?_eq_getElem hr) (fun r ru h => chkAll_uses potion_chk r ru h (hA r ru h)) hs vals yy

/-- The generated C code accepts exactly the programs the parsing expressions of Model/Syntax.lean accept, and reads as far. -/
theorem C64_potion (hs : inp.length < YY_BUFFER_START_SIZE) (p : Nat) :
    (∃ fuel g', start potionGrammar R.potion P fuel inp (init buf thunks text) = some (true, g') ∧ g'.pos = p) ↔
    p ≤ inp.length ∧ ∃ f t, Peg.run Peg.rule f Peg.program inp = some (some (t, inp.drop p)) := by
  obtain ⟨ru, hr⟩ : ∃ ru, potionGrammar[R.potion]? = some ru := ⟨_, List.getElem?_eq_getElem (by decide +kernel)⟩
  rw [C64_accepts buf thunks text potion_made hr hs p]
  obtain ⟨f0, r0, hf0⟩ := Peg.C52_ends inp
  have hrun := hf0 f0 (Nat.le_refl _)
  rw [Peg.parse, Option.map_eq_some_iff] at hrun
  obtain ⟨x, hx, _⟩ := hrun
  constructor
  · rintro ⟨evs, m', h⟩
    have hmv := eval_moves (chkAll_ends potion_chk).hnul h _ _ _ rfl
    refine ⟨hmv.2.2 (Nat.zero_le _), ?_⟩
    have := agree_top hr h hx
    cases x with
    | none => cases this
    | some y => obtain ⟨t, rest⟩ := y; cases this; exact ⟨f0, t, hx⟩
  · rintro ⟨hp, f, t, hft⟩
    obtain ⟨res, h⟩ := eval_total (P := P) (inp := inp) (chkAll_ends potion_chk) (fun r ru h => (potion_made r ru h).2) _ 0 rfl (Nat.zero_le _) ru.body
      ((chkAll_ends potion_chk).hfine _ ru hr) (potion_made _ ru hr).2 R.potion ⟨0, 0, []⟩
    have := agree_top hr h hft
    cases res with
    | fail m' => cases this
    | ok p' evs m' =>
      have hmv := (eval_moves (chkAll_ends potion_chk).hnul h _ _ _ rfl).2.2 (Nat.zero_le _)
      have e : inp.drop p = inp.drop p' := Option.some.inj this
      have e : (inp.drop p).length = (inp.drop p').length := by rw [e]
      rw [List.length_drop, List.length_drop] at e
      obtain rfl : p = p' := by omega
      exact ⟨evs, m', h⟩

/-- Every text of a program (Spec/Syntax.lean) is accepted by the generated C code, to its end. -/
theorem C64_programs {t} (h : Potion.Spec.IsProgram inp t) (hs : inp.length < YY_BUFFER_START_SIZE) :
    ∃ fuel g', start potionGrammar R.potion P fuel inp (init buf thunks text) = some (true, g') ∧ g'.pos = inp.length := by
  rw [C64_potion buf thunks text hs]
  obtain ⟨f0, hf⟩ := Peg.C51_parse h
  have := hf f0 (Nat.le_refl _)
  rw [Peg.parse, Option.map_eq_some_iff] at this
  obtain ⟨x, hx, hx'⟩ := this
  rw [Option.map_eq_some_iff] at hx'
  obtain ⟨y, rfl, rfl⟩ := hx'
  obtain ⟨t, rest⟩ := y
  refine ⟨Nat.le_refl _, f0, t, ?_⟩
  rw [List.drop_length]
  have hend := program_end hx
  subst hend
  exact hx
end

/-! ### Examples -/

/-- `sum = x:num { $$ = x } (',' y:num { x = $$ = x + y })* ; num = < [0-9]+ > { $$ = atoi(yytext) }` -/
def sumGrammar : Grammar := [
  ⟨2, sequ [.name 1 (some 1), .act 0, .star (sequ [.chr 0x2C, .name 1 (some 0), .act 1])]⟩,
  ⟨0, sequ [.open, .plus (.cls [0x30, 0x2D, 0x39]), .close, .act 2]⟩]

def sumActs : Nat → List Byte → (Nat → Nat) → Nat → (Nat → Nat) × Nat
  | 0, _, env, _ => (env, env 1)
  | 1, _, env, _ => (fun i => if i = 1 then env 1 + env 0 else env i, env 1 + env 0)
  | _, t, env, _ => (env, t.foldl (fun n c => n * 10 + (c.toNat - 48)) 0)

theorem sum_chk : chkAll sumGrammar (fun _ => false) (fun r => 1 - r) = true := by decide +kernel

theorem sum_local (r : Nat) (ru : Rule) (h : sumGrammar[r]? = some ru) (a : Nat) (ha : a ∈ ru.body.acts) : Local sumActs ru.nvars a := by
  match r, h with
  | 0, h =>
    cases h
    have : a = 0 ∨ a = 1 := by simpa [sequ, Exps.ofList, Exp.acts, Exps.acts] using ha
    rcases this with rfl | rfl <;> intro t env env' y he
    · exact ⟨he, he 1 (by decide)⟩
    · refine ⟨fun i hi => ?_, ?_⟩
      · simp only [sumActs]; rw [he 0 (by decide), he 1 (by decide)]
        split
        · rfl
        · exact he i hi
      · simp only [sumActs]; rw [he 0 (by decide), he 1 (by decide)]
  | 1, h =>
    cases h
    have : a = 2 := by simpa [sequ, Exps.ofList, Exp.acts, Exps.acts] using ha
    subst this
    intro t env env' y he
    exact ⟨he, rfl⟩
  | (k+2), h => simp [sumGrammar] at h

/-- "12,30,4" -/
def sumText : List Byte := [0x31, 0x32, 0x2C, 0x33, 0x30, 0x2C, 0x34]

example : ∃ f0 res, ∀ f, f0 ≤ f → parse sumGrammar 0 (fun _ _ => true) sumActs f sumText (init (fun _ => 0) (fun _ => .push 0) []) (fun _ => 0) 0 = some res :=
  C65_returns _ _ _ (chkAll_ends sum_chk) (chkAll_good sum_chk) rfl (fun r ru h => chkAll_uses sum_chk r ru h (sum_local r ru h)) (by decide) _ _

/-- The sum is computed. -/
example : ((parse sumGrammar 0 (fun _ _ => true) sumActs 60 sumText (init (fun _ => 0) (fun _ => .push 0) []) (fun _ => 0) 0).map fun x => (x.1, x.2.1.pos, x.2.2.yy)) =
    some (true, 7, 46) := by decide +kernel

/-- What follows the match does not matter, and half a match is taken back: "12,x". -/
example : ((parse sumGrammar 0 (fun _ _ => true) sumActs 60 [0x31, 0x32, 0x2C, 0x78] (init (fun _ => 0) (fun _ => .push 0) []) (fun _ => 0) 0).map
    fun x => (x.1, x.2.1.pos, x.2.2.yy)) = some (true, 2, 12) := by decide +kernel

/-- Potion: `a = 1` is accepted, `a = )` is not. -/
example : ((start potionGrammar R.potion (fun _ _ => true) 4000 [0x61, 0x20, 0x3D, 0x20, 0x31] (init (fun _ => 0) (fun _ => .push 0) [])).map
    fun x => (x.1, x.2.pos)) = some (true, 5) := by decide +kernel
example : ((start potionGrammar R.potion (fun _ _ => true) 4000 [0x61, 0x20, 0x3D, 0x20, 0x29] (init (fun _ => 0) (fun _ => .push 0) [])).map
    fun x => (x.1, x.2.pos)) = some (false, 0) := by decide +kernel

/-! ### What does not hold -/

/-- `nest = '(' nest ')' | x:leaf ; leaf = 'x'`: a rule without actions assigns, to its variable, the value of a rule without variables. -/
def nestGrammar : Grammar := [⟨1, choice [sequ [.chr 0x28, .name 0 none, .chr 0x29], .name 1 (some 0)]⟩, ⟨0, .chr 0x78⟩]

/-- `n` parentheses around an `x`. -/
def nestText (n : Nat) : List Byte := List.replicate n 0x28 ++ 0x78 :: List.replicate n 0x29

def nestEvs : Nat → List Ev
  | 0 => [.enter 1, .leave 1, .set 0 0]
  | n+1 => .enter 0 :: nestEvs n ++ [.leave 0]

theorem nest_eval (P : Nat → List Byte → Bool) (m : Marks) (n : Nat) : ∀ k, k ≤ n →
    Eval nestGrammar P (nestText n) 0 nestGrammar[0].body (n - k) m (.ok (n + k + 1) (nestEvs k) m)
  | 0, _ => by
    have hx : (nestText n)[n - 0]? = some 0x78 := by simp [nestText]
    refine .altNext (.seqFail (.chrFail (by rw [hx]; decide))) (.altOk ?_)
    exact .nameOk (ru := ⟨0, .chr 0x78⟩) (evs := []) rfl (.chrOk hx)
  | k+1, hk => by
    have h1 : (nestText n)[n - (k+1)]? = some 0x28 := by
      rw [nestText, List.getElem?_append_left (by simp; omega), List.getElem?_replicate, if_pos (by omega)]
    have h2 : (nestText n)[n + k + 1]? = some 0x29 := by
      rw [nestText, List.getElem?_append_right (by simp; omega), List.length_replicate, show n + k + 1 - n = k + 1 by omega, List.getElem?_cons_succ,
        List.getElem?_replicate, if_pos (by omega)]
    have ih := nest_eval P m n k (by omega)
    rw [show n - k = n - (k+1) + 1 by omega] at ih
    have := Eval.altOk (l := .cons (.name 1 (some 0)) .nil) (Eval.seqOk (r := 0) (.chrOk h1) (.seqOk (.nameOk (g := nestGrammar) (v := none) rfl ih) (.seqOk (.chrOk h2) .seqNil)))
    rw [List.append_nil, List.append_nil, List.nil_append] at this
    exact this

theorem nest_thunks : ∀ n, (nestEvs n).flatMap (thunk nestGrammar) = List.replicate n (.push 1) ++ .set 0 :: List.replicate n (.pop 1)
  | 0 => rfl
  | n+1 => by
    have h1 : thunk nestGrammar (.enter 0) = [.push 1] := rfl
    have h2 : thunk nestGrammar (.leave 0) = [.pop 1] := rfl
    rw [nestEvs, List.cons_append, List.flatMap_cons, List.flatMap_append, nest_thunks n, List.flatMap_cons, List.flatMap_nil, List.append_nil, h1, h2, List.replicate_succ,
      List.replicate_succ' (n := n) (a := Thunk.pop 1)]
    simp

/-- 1023 parentheses: the match succeeds, then the value is written past the array of values. -/
theorem C65_refuted_values {α : Type} {A : Nat → List Byte → (Nat → α) → α → (Nat → α) × α} (P : Nat → List Byte → Bool) (buf : Nat → Byte) (thunks : Nat → Thunk) (text : List Byte)
    (vals : Nat → α) (yy : α) :
    (∃ fuel g', start nestGrammar 0 P fuel (nestText 1023) (init buf thunks text) = some (true, g')) ∧
    ∀ fuel, parse nestGrammar 0 P A fuel (nestText 1023) (init buf thunks text) vals yy = none := by
  have hg : ∀ (r : Nat) ru, nestGrammar[r]? = some ru → ru.body.Ascii := by
    intro r ru h
    match r, h with
    | 0, h => cases h; simp [choice, sequ, Exps.ofList, Exp.Ascii, Exps.Ascii]
    | 1, h => cases h; simp [Exp.Ascii]
    | (k+2), h => simp [nestGrammar] at h
  have hev := nest_eval P ⟨0, 0, []⟩ 1023 1023 (Nat.le_refl _)
  obtain ⟨fn, h1, f, g', h2, h3, h4, h5, h6, h7⟩ := start_fwd (r0 := 0) (ru := nestGrammar[0]) rfl hg
    (init_inv (by rw [nestText, List.length_append, List.length_cons, List.length_replicate, List.length_replicate]; decide) buf thunks text) (init_marked buf thunks text) hev
  have hst : start nestGrammar 0 P f (nestText 1023) (init buf thunks text) = some (true, g') := by rw [start, h1]; exact h2
  refine ⟨⟨f, g', hst⟩, fun fuel => ?_⟩
  rw [parse]
  split
  · rfl
  next ok1 g1 hst1 =>
  have e : (ok1, g1) = (true, g') := by
    rw [start, h1] at hst1
    exact exec_det (prog := compAll nestGrammar 0) (P := P) (inp := nestText 1023) hst1 h2
  cases e
  have ht : (List.range g'.thunkpos).map g'.thunks = List.replicate 1024 (.push 1) ++ .set 0 :: List.replicate 1024 (.pop 1) := by
    have : Ev.enter 0 :: nestEvs 1023 ++ [Ev.leave 0] = nestEvs 1024 := rfl
    rw [this, nest_thunks] at h7
    exact h7
  have key : ∀ (n : Nat) (ts : List Thunk) (d : D α), d.valslen = 1024 → d.val + n ≤ 1024 →
      yyDone A g'.buf g'.buflen (List.replicate n (.push 1) ++ ts) d = yyDone A g'.buf g'.buflen ts { d with val := d.val + n } := by
    intro n
    induction n with
    | zero => intro ts d _ _; rfl
    | succ n ih =>
      intro ts d h1 h2
      rw [List.replicate_succ, List.cons_append, yyDone, doThunk, if_neg (by omega)]
      have := ih ts { d with val := d.val + 1 } h1 (by show d.val + 1 + n ≤ 1024; omega)
      rw [show d.val + 1 + n = d.val + (n + 1) by omega] at this
      exact this
  simp only [if_true]
  rw [ht, key 1024 _ _ rfl (Nat.le_refl _), yyDone, doThunk]
  simp only [YY_STACK_SIZE]
  rw [if_neg (by omega)]

/-- A text that fills the buffer or more: one byte is written past its end, at the first look. -/
theorem C65_refuted_buffer (buf : Nat → Byte) (thunks : Nat → Thunk) (text : List Byte) {inp : List Byte} (hs : YY_BUFFER_START_SIZE ≤ inp.length) :
    look inp (init buf thunks text) = none := by
  have hs' : 16384 ≤ inp.length := hs
  generalize hg : init buf thunks text = g
  have e1 : g.pos = 0 := by rw [← hg]; rfl
  have e2 : g.limit = 0 := by rw [← hg]; rfl
  have e3 : g.buflen = 16384 := by rw [← hg]; rfl
  have e4 : g.yypos = 0 := by rw [← hg]; rfl
  have e5 : double (fun n => decide (g.pos + 512 ≤ n)) (g.pos + 512) g.buflen = some 16384 := by
    rw [e1, e3]
    show double _ (511 + 1) 16384 = _
    rw [double, if_pos (by decide)]
  have e6 : ¬ g.yypos + (16384 - g.pos) > inp.length := by omega
  rw [look, if_pos (by omega), refill, e5]
  simp only [if_neg e6]
  rw [if_pos (by omega), if_neg (by omega)]

/-- A literal of one character above 127 matches nothing. -/
theorem C64_refuted_char {c : Byte} (hc : 128 ≤ c.toNat) (inp : List Byte) (g : G) {g'} : matchChar inp c g ≠ some (true, g') := by
  rw [matchChar]
  split
  · rw [if_neg]
    · simp
    · rw [BitVec.toInt_eq_toNat_cond]
      have := c.isLt
      rw [if_neg (by omega)]
      omega
  · next h =>
    intro e
    exact h _ e

/-- The text an action is given may be one that was marked in an alternative that failed: `< 'x' 'x' > 'y' | . {0}` on "xxz". -/
theorem C64_refuted_text : ((parse [⟨0, choice [sequ [.open, .chr 0x78, .chr 0x78, .close, .chr 0x79], sequ [.any, .act 0]]⟩] 0 (fun _ _ => true) (fun _ t env _ => (env, t)) 40
    [0x78, 0x78, 0x7A] (init (fun _ => 0) (fun _ => .push 0) []) (fun _ => []) []).map fun x => (x.1, x.2.1.pos, x.2.2.yy)) = some (true, 1, [0x78, 0x78]) := by decide +kernel

/-! ### The checks of greg -/

/-- When `consumesInput` says that a rule consumes something, it does, whenever it matches. -/
theorem C66_consumes {gr : Grammar} {P : Nat → List Byte → Bool} {inp : List Byte} {r r' : Nat} {v pos m p evs m' fuel reached} (hc : (consumesRule gr fuel reached r).1 = true)
    (h : Eval gr P inp r' (.name r v) pos m (.ok p evs m')) : pos < p :=
  consumes_ok h fuel reached (by rw [Exp.consumes]; exact hc) _ _ _ rfl

/-- greg does not warn of left recursion when there is none. -/
theorem C66_no_false_alarm {gr : Grammar} {nul rank} (he : Ends gr nul rank) : warnings gr = [] := no_warnings he

example : warnings potionGrammar = [] := C66_no_false_alarm (chkAll_ends potion_chk)

/-- It does warn of `a = a 'x' | 'y'`. -/
example : warnings [⟨0, choice [sequ [.name 0 none, .chr 0x78], .chr 0x79]⟩] = [0] := by decide +kernel

/-- But not of `a = a? 'x'`, whose function never returns, on no text. -/
theorem C66_refuted_recursion (P : Nat → List Byte → Bool) (buf : Nat → Byte) (thunks : Nat → Thunk) (text inp : List Byte) (hs : inp.length < YY_BUFFER_START_SIZE) (fuel : Nat) :
    warnings [⟨0, sequ [.opt (.name 0 none), .chr 0x78]⟩] = [] ∧
    start [⟨0, sequ [.opt (.name 0 none), .chr 0x78]⟩] 0 P fuel inp (init buf thunks text) = none := by
  refine ⟨by decide +kernel, no_return buf thunks text ?_ rfl hs ?_ fuel⟩
  · intro r ru h
    match r, h with
    | 0, h => cases h; simp [sequ, Exps.ofList, Exp.Ascii, Exps.Ascii, Exp.Good, Exps.Good]
    | (k+1), h => simp at h
  · have key : ∀ {r e pos m res}, Eval [⟨0, sequ [.opt (.name 0 none), .chr 0x78]⟩] P inp r e pos m res →
        e ≠ sequ [.opt (.name 0 none), .chr 0x78] ∧ e ≠ .opt (.name 0 none) ∧ e ≠ .name 0 none := by
      intro r e pos m res h
      induction h with
      | seqOk h h' ih ih' => refine ⟨fun he => ?_, fun he => (by cases he), fun he => (by cases he)⟩; cases he; exact ih.2.1 rfl
      | seqFail h ih => refine ⟨fun he => ?_, fun he => (by cases he), fun he => (by cases he)⟩; cases he; exact ih.2.1 rfl
      | seqFail2 h h' ih ih' => refine ⟨fun he => ?_, fun he => (by cases he), fun he => (by cases he)⟩; cases he; exact ih.2.1 rfl
      | optSome h ih => refine ⟨fun he => (by cases he), fun he => ?_, fun he => (by cases he)⟩; cases he; exact ih.2.2 rfl
      | optNone h ih => refine ⟨fun he => (by cases he), fun he => ?_, fun he => (by cases he)⟩; cases he; exact ih.2.2 rfl
      | nameOk hr h ih => refine ⟨fun he => (by cases he), fun he => (by cases he), fun he => ?_⟩; cases he; cases hr; exact ih.1 rfl
      | nameFail hr h ih => refine ⟨fun he => (by cases he), fun he => (by cases he), fun he => ?_⟩; cases he; cases hr; exact ih.1 rfl
      | _ => exact ⟨fun he => (by cases he), fun he => (by cases he), fun he => (by cases he)⟩
    exact fun res h => (key h).1 rfl

/-- Nor of `a = ''*`, whose function never returns either. -/
theorem C66_refuted_repetition (P : Nat → List Byte → Bool) (buf : Nat → Byte) (thunks : Nat → Thunk) (text inp : List Byte) (hs : inp.length < YY_BUFFER_START_SIZE) (fuel : Nat) :
    warnings [⟨0, .star (.str [])⟩] = [] ∧ start [⟨0, .star (.str [])⟩] 0 P fuel inp (init buf thunks text) = none := by
  refine ⟨by decide +kernel, no_return buf thunks text ?_ rfl hs ?_ fuel⟩
  · intro r ru h
    match r, h with
    | 0, h => cases h; simp [Exp.Ascii, Exp.Good]
    | (k+1), h => simp at h
  · have key : ∀ {r e pos m res}, Eval [⟨0, .star (.str [])⟩] P inp r e pos m res → e ≠ .star (.str []) := by
      intro r e pos m res h
      induction h with
      | starEnd h ih => intro he; cases he; cases h with | strFail h => exact h List.nil_prefix
      | starMore h h' ih ih' => exact ih'
      | _ => intro he; cases he
    exact fun res h => key h rfl

/-- A character class is the set of bytes its text stands for. -/
theorem C66_class {t p} (h : IsClass t p) : ∃ bits, makeCharClass t = some bits ∧ ∀ c : Byte, bits c.toNat = true ↔ p c := class_ok h

/-- `[^A-F\n]` -/
example : ∃ p, IsClass [0x5E, 0x41, 0x2D, 0x46, 0x5C, 0x6E] p := chkClass_ok (by decide +kernel)

/-- `[a\-c]` is read as a range, it contains `b` and not `-`. -/
theorem C66_refuted_dash : ((makeCharClass [0x61, 0x5C, 0x2D, 0x63]).map fun bits => (bits 0x62, bits 0x2D)) = some (true, false) := by decide +kernel

/-- `[\477]`: a bit outside the set is set. -/
theorem C66_refuted_octal : makeCharClass [0x5C, 0x34, 0x37, 0x37] = none := by decide +kernel

end Potion.Greg
