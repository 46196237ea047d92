import Verif.Proof.GregConv
namespace Potion.Greg

section
variable {α : Type} {A : Nat → List Byte → (Nat → α) → α → (Nat → α) × α} {buf : Nat → Byte} {buflen : Nat}

theorem yyDone_append (ts us : List Thunk) (d : D α) : yyDone A buf buflen (ts ++ us) d = (yyDone A buf buflen ts d).bind (yyDone A buf buflen us) := by
  induction ts generalizing d with
  | nil => rfl
  | cons t ts ih =>
    rw [List.cons_append, yyDone, yyDone]
    cases doThunk A buf buflen d t with
    | none => rfl
    | some d' => exact ih d'

/-- The variables of the rules being run, in the array; those of a rule without actions do not matter. -/
def Stk (vals : Nat → α) : Nat → List (Rule × (Nat → α)) → Prop
  | _, [] => True
  | v, (ru, env) :: fs => ru.nvars ≤ v ∧ (ru.body.hasAct = true → ∀ i, i < ru.nvars → vals (v - 1 - i) = env i) ∧ Stk vals (v - ru.nvars) fs

theorem Stk.congr {vals vals' : Nat → α} : ∀ {fs v}, Stk vals v fs → (∀ k, k < v → vals' k = vals k) → Stk vals' v fs
  | [], _, _, _ => trivial
  | (ru, env) :: fs, v, h, he => ⟨h.1, fun ha i hi => by rw [he _ (by have := h.1; omega), h.2.1 ha i hi], Stk.congr h.2.2 fun k hk => he k (by omega)⟩

structure GoodD (d : D α) : Prop where
  val : d.val ≤ d.valslen
  len : 1 ≤ d.valslen
  text : 1 ≤ d.textlen

/-- The events do in the array what they should. -/
def Vok (gr : Grammar) (A : Nat → List Byte → (Nat → α) → α → (Nat → α) × α) (buf : Nat → Byte) (buflen : Nat) (inp : List Byte) (ru : Rule) (evs : List Ev) : Prop :=
  ∀ (d : D α) env fs, GoodD d → Stk d.vals d.val ((ru, env) :: fs) → ∃ d' env', yyDone A buf buflen (evs.flatMap (thunk gr)) d = some d' ∧ GoodD d' ∧
    d'.val = d.val ∧ d.valslen ≤ d'.valslen ∧ Stk d'.vals d'.val ((ru, env') :: fs) ∧
    ∀ envs rest s', Runs A inp rest (env' :: envs, d'.yy) s' → Runs A inp (evs ++ rest) (env :: envs, d.yy) s'

variable {gr : Grammar} {inp : List Byte} {ru : Rule}

theorem Vok.nil : Vok gr A buf buflen inp ru [] := fun d env fs hd hs => ⟨d, env, rfl, hd, rfl, Nat.le_refl _, hs, fun _ _ _ h => h⟩

theorem Vok.append {e1 e2 : List Ev} (h1 : Vok gr A buf buflen inp ru e1) (h2 : Vok gr A buf buflen inp ru e2) : Vok gr A buf buflen inp ru (e1 ++ e2) := by
  intro d env fs hd hs
  obtain ⟨d1, env1, a1, a2, a3, a3', a4, a5⟩ := h1 d env fs hd hs
  obtain ⟨d2, env2, b1, b2, b3, b3', b4, b5⟩ := h2 d1 env1 fs a2 a4
  refine ⟨d2, env2, ?_, b2, b3.trans a3, Nat.le_trans a3' b3', b4, fun envs rest s' h => ?_⟩
  · rw [List.flatMap_append, yyDone_append, a1]; exact b1
  · rw [List.append_assoc]; exact a5 _ _ _ (b5 _ _ _ h)

theorem Vok.act {r a b e : Nat} (hr : gr[r]? = some ru) (hact : ru.body.hasAct = true) (hl : Local A ru.nvars a)
    (ht : ∀ tl, 1 ≤ tl → ∃ len, yyText buf buflen tl b e = some (slice inp b e, len) ∧ 1 ≤ len) :
    Vok gr A buf buflen inp ru [.act r a b e] := by
  intro d env fs hd hs
  obtain ⟨t, len, e1, e2, e3⟩ : ∃ t len, (if e ≠ 0 then yyText buf buflen d.textlen b e else some (d.text, d.textlen)) = some (t, len) ∧ 1 ≤ len ∧
      (e ≠ 0 → t = slice inp b e) := by
    by_cases he : e = 0
    · exact ⟨d.text, d.textlen, by simp [he], hd.text, fun h => absurd he h⟩
    · obtain ⟨len, h1, h2⟩ := ht d.textlen hd.text
      exact ⟨_, len, by rw [if_pos he]; exact h1, h2, fun _ => rfl⟩
  have hloc := hl t (fun i => d.vals (d.val - 1 - i)) env d.yy (hs.2.1 hact)
  have hdo : yyDone A buf buflen ([Ev.act r a b e].flatMap (thunk gr)) d = some { d with
          vals := fun k => if d.val ≤ k + ru.nvars ∧ k < d.val then (A a t (fun i => d.vals (d.val - 1 - i)) d.yy).1 (d.val - 1 - k) else d.vals k
          yy := (A a t (fun i => d.vals (d.val - 1 - i)) d.yy).2
          text := t
          textlen := len } := by
    simp only [List.flatMap_cons, List.flatMap_nil, thunk, hr, List.append_nil, yyDone, doThunk]
    rw [if_pos ⟨hs.1, hd.val⟩, e1]
  refine ⟨_, (A a t env d.yy).1, hdo, ⟨hd.val, hd.len, e2⟩, rfl, Nat.le_refl _, ⟨hs.1, ?_, ?_⟩, ?_⟩
  · intro _ i hi
    have h1 := hs.1
    dsimp only
    rw [if_pos ⟨by omega, by omega⟩, show d.val - 1 - (d.val - 1 - i) = i by omega]
    exact hloc.1 i hi
  · apply hs.2.2.congr
    intro k hk
    dsimp only at hk ⊢
    rw [if_neg (by omega)]
  · intro envs rest s' h
    refine .act (t := t) e3 ?_
    rw [← hloc.2]; exact h

/-- Calling a rule. -/
theorem Vok.call {r' : Nat} {ru' : Rule} {evs : List Ev} (hr' : gr[r']? = some ru') (h : Vok gr A buf buflen inp ru' evs)
    (d : D α) (fs : List (Rule × (Nat → α))) (hd : GoodD d) (hs : Stk d.vals d.val fs) :
    ∃ d', yyDone A buf buflen ((Ev.enter r' :: evs ++ [Ev.leave r']).flatMap (thunk gr)) d = some d' ∧ GoodD d' ∧ d'.val = d.val ∧ d.val + ru'.nvars ≤ d'.valslen ∧ d.valslen ≤ d'.valslen ∧ Stk d'.vals d'.val fs ∧
      ∀ envs rest s', Runs A inp rest (envs, d'.yy) s' → Runs A inp (Ev.enter r' :: evs ++ [Ev.leave r'] ++ rest) (envs, d.yy) s' := by
  -- enter
  obtain ⟨d1, env1, a1, a2, a3, a3', a4, a5⟩ : ∃ d1 env1, yyDone A buf buflen (thunk gr (.enter r')) d = some d1 ∧ GoodD d1 ∧ d1.val = d.val + ru'.nvars ∧ d.valslen ≤ d1.valslen ∧
      Stk d1.vals d1.val ((ru', env1) :: fs) ∧ d1.yy = d.yy := by
    by_cases hn : ru'.nvars = 0
    · exact ⟨d, fun _ => d.yy, by simp [thunk, hr', hn, yyDone], hd, by omega, Nat.le_refl _, ⟨by omega, fun _ i hi => by omega, by rw [hn]; exact hs⟩, rfl⟩
    · by_cases hof : d.val + ru'.nvars > d.valslen
      · obtain ⟨len, l1, l2, l3⟩ := double_ok (d.val + ru'.nvars + 1) (d.val + ru'.nvars + 1) d.valslen hd.len (by have := hd.len; omega) (by omega)
        refine ⟨{ d with valslen := len, val := d.val + ru'.nvars }, fun i => d.vals (d.val + ru'.nvars - 1 - i), ?_, ⟨by dsimp only; omega, by have := hd.len; dsimp only; omega, hd.text⟩, rfl, l3, ⟨by dsimp only; omega, fun _ i hi => rfl, ?_⟩, rfl⟩
        · simp only [thunk, hr', hn, if_false, yyDone, doThunk]
          rw [if_pos hof, l1]
        · rw [show d.val + ru'.nvars - ru'.nvars = d.val by omega]; exact hs
      · refine ⟨{ d with val := d.val + ru'.nvars }, fun i => d.vals (d.val + ru'.nvars - 1 - i), ?_, ⟨by dsimp only; omega, hd.len, hd.text⟩, rfl, Nat.le_refl _, ⟨by dsimp only; omega, fun _ i hi => rfl, ?_⟩, rfl⟩
        · simp only [thunk, hr', hn, if_false, yyDone, doThunk]
          rw [if_neg hof]
        · rw [show d.val + ru'.nvars - ru'.nvars = d.val by omega]; exact hs
  obtain ⟨d2, env2, b1, b2, b3, b3', b4, b5⟩ := h d1 env1 fs a2 a4
  -- leave
  obtain ⟨d3, c1, c2, c3, c3', c4, c5⟩ : ∃ d3, yyDone A buf buflen (thunk gr (.leave r')) d2 = some d3 ∧ GoodD d3 ∧ d3.val = d.val ∧ d3.valslen = d2.valslen ∧
      Stk d3.vals d3.val fs ∧ d3.yy = d2.yy := by
    by_cases hn : ru'.nvars = 0
    · refine ⟨d2, by simp [thunk, hr', hn, yyDone], b2, by omega, rfl, ?_, rfl⟩
      have := b4.2.2
      rwa [hn] at this
    · refine ⟨{ d2 with val := d2.val - ru'.nvars }, ?_, ⟨by have := b2.val; dsimp only; omega, b2.len, b2.text⟩, by dsimp only; omega, rfl, b4.2.2, rfl⟩
      simp only [thunk, hr', hn, if_false, yyDone, doThunk]
      rw [if_pos b4.1]
  have := a2.val
  refine ⟨d3, ?_, c2, c3, by omega, by omega, c4, ?_⟩
  · simp only [List.cons_append, List.flatMap_cons, List.flatMap_append, List.flatMap_nil, List.append_nil, yyDone_append, a1, Option.bind_some, b1, c1]
  · intro envs rest s' h
    rw [← a5]
    simp only [List.cons_append, List.append_assoc, List.nil_append]
    refine .enter (env := env1) (b5 _ _ _ (.leave ?_))
    rw [← c5]; exact h

theorem Vok.name {r r' : Nat} {ru' : Rule} {evs : List Ev} {v : Option Nat} (hr' : gr[r']? = some ru') (hr : gr[r]? = some ru)
    (hv : ∀ v', v = some v' → v' < ru.nvars ∧ (ru.body.hasAct = true ∨ ru'.nvars ≠ 0)) (h : Vok gr A buf buflen inp ru' evs) :
    Vok gr A buf buflen inp ru (.enter r' :: evs ++ .leave r' :: (v.map (Ev.set r)).toList) := by
  intro d env fs hd hs
  obtain ⟨d3, c1, c2, c3, c6, c7, c4, c5⟩ := h.call hr' d _ hd hs
  cases v with
  | none =>
    refine ⟨d3, env, c1, c2, c3, c7, c4, ?_⟩
    intro envs rest s' h
    exact c5 _ _ _ h
  | some v =>
    obtain ⟨hlt, hor⟩ := hv v rfl
    have h1 := c4.1
    have hval := c2.val
    have hsplit : (Ev.enter r' :: evs ++ .leave r' :: ((some v).map (Ev.set r)).toList) = (Ev.enter r' :: evs ++ [Ev.leave r']) ++ [Ev.set r v] := by simp
    rw [hsplit]
    cases hact : ru.body.hasAct with
    | true =>
      have hoff : offset ru v = -((v : Int) + 1) := by rw [offset, if_pos hact]; omega
      have hk : (d3.val : Int) + offset ru v = ((d3.val - 1 - v : Nat) : Int) := by rw [hoff]; omega
      refine ⟨{ d3 with vals := fun j => if j = d3.val - 1 - v then d3.yy else d3.vals j }, fun i => if i = v then d3.yy else env i, ?_, ⟨hval, c2.len, c2.text⟩, c3, c7, ⟨h1, ?_, ?_⟩, ?_⟩
      · rw [List.flatMap_append, yyDone_append, c1, Option.bind_some]
        simp only [List.flatMap_cons, List.flatMap_nil, List.append_nil, thunk, hr, yyDone, doThunk, hk]
        rw [if_pos (by omega)]
        simp only [Int.ofNat_inj]
      · intro _ i hi
        dsimp only
        by_cases hiv : i = v
        · rw [if_pos hiv, if_pos (by omega)]
        · rw [if_neg hiv, if_neg (by omega)]; exact c4.2.1 hact i hi
      · apply c4.2.2.congr
        intro k hk
        dsimp only
        rw [if_neg (by omega)]
      · intro envs rest s' h
        rw [List.append_assoc]
        exact c5 _ _ _ (.set h)
    | false =>
      have hn := hor.resolve_left (by simp [hact])
      have hoff : offset ru v = 0 := by rw [offset, if_neg (by simp [hact])]
      have hk : (d3.val : Int) + offset ru v = (d3.val : Int) := by rw [hoff]; omega
      have hlen : d3.val < d3.valslen := by omega
      refine ⟨{ d3 with vals := fun j => if j = d3.val then d3.yy else d3.vals j }, fun i => if i = v then d3.yy else env i, ?_, ⟨hval, c2.len, c2.text⟩, c3, c7, ⟨h1, ?_, ?_⟩, ?_⟩
      · rw [List.flatMap_append, yyDone_append, c1, Option.bind_some]
        simp only [List.flatMap_cons, List.flatMap_nil, List.append_nil, thunk, hr, yyDone, doThunk, hk]
        rw [if_pos (by omega)]
        simp only [Int.ofNat_inj]
      · intro h; rw [hact] at h; cases h
      · apply c4.2.2.congr
        intro k hk
        dsimp only
        rw [if_neg (by omega)]
      · intro envs rest s' h
        rw [List.append_assoc]
        exact c5 _ _ _ (.set h)

theorem vals_ok {P : Nat → List Byte → Bool} (hA : ∀ (r : Nat) ru, gr[r]? = some ru → ru.body.Uses A (Deep gr ru) ru.nvars)
    {r e pos m res} (h : Eval gr P inp r e pos m res) : ∀ ru, gr[r]? = some ru → e.Uses A (Deep gr ru) ru.nvars → (e.hasAct = true → ru.body.hasAct = true) → ∀ p evs m', res = .ok p evs m' →
    (∀ r' ru' a b e', gr[r']? = some ru' → Ev.act r' a b e' ∈ evs → ∀ tl, 1 ≤ tl → ∃ len, yyText buf buflen tl b e' = some (slice inp b e', len) ∧ 1 ≤ len) →
    Vok gr A buf buflen inp ru evs := by
  induction h with
  | @act r pos m a =>
    intro ru hr hu hh p evs m' he ht
    cases he
    rw [Exp.Uses] at hu
    exact Vok.act hr (hh (by simp [Exp.hasAct])) hu (ht r ru a _ _ hr (by simp))
  | errOk h ih => intro ru hr hu hh p evs m' he ht; exact ih ru hr (by simpa [Exp.Uses] using hu) (fun h => hh (by simp only [Exp.hasAct, Exps.hasAct, Bool.or_eq_true] at h ⊢; simp [h])) _ _ _ he ht
  | altOk h ih => intro ru hr hu hh p evs m' he ht; simp only [Exp.Uses, Exps.Uses] at hu; exact ih ru hr hu.1 (fun h => hh (by simp only [Exp.hasAct, Exps.hasAct, Bool.or_eq_true] at h ⊢; simp [h])) _ _ _ he ht
  | altNext h h' ih ih' =>
    intro ru hr hu hh p evs m' he ht
    rw [Exp.Uses, Exps.Uses] at hu
    exact ih' ru hr (by rw [Exp.Uses]; exact hu.2) (fun h => hh (by simp only [Exp.hasAct, Exps.hasAct, Bool.or_eq_true] at h ⊢; simp [h])) _ _ _ he ht
  | seqOk h h' ih ih' =>
    intro ru hr hu hh p evs m' he ht
    cases he
    rw [Exp.Uses, Exps.Uses] at hu
    exact (ih ru hr hu.1 (fun h => hh (by simp only [Exp.hasAct, Exps.hasAct, Bool.or_eq_true] at h ⊢; simp [h])) _ _ _ rfl (fun r' ru' a b e' h1 h2 => ht r' ru' a b e' h1 (List.mem_append_left _ h2))).append
      (ih' ru hr (by rw [Exp.Uses]; exact hu.2) (fun h => hh (by simp only [Exp.hasAct, Exps.hasAct, Bool.or_eq_true] at h ⊢; simp [h])) _ _ _ rfl (fun r' ru' a b e' h1 h2 => ht r' ru' a b e' h1 (List.mem_append_right _ h2)))
  | starMore h h' ih ih' =>
    intro ru hr hu hh p evs m' he ht
    cases he
    have hu' := hu
    rw [Exp.Uses] at hu
    exact (ih ru hr hu (fun h => hh (by simp only [Exp.hasAct, Exps.hasAct, Bool.or_eq_true] at h ⊢; simp [h])) _ _ _ rfl (fun r' ru' a b e' h1 h2 => ht r' ru' a b e' h1 (List.mem_append_left _ h2))).append
      (ih' ru hr hu' hh _ _ _ rfl (fun r' ru' a b e' h1 h2 => ht r' ru' a b e' h1 (List.mem_append_right _ h2)))
  | plusOk h h' ih ih' =>
    intro ru hr hu hh p evs m' he ht
    cases he
    rw [Exp.Uses] at hu
    exact (ih ru hr hu (fun h => hh (by simp only [Exp.hasAct, Exps.hasAct, Bool.or_eq_true] at h ⊢; simp [h])) _ _ _ rfl (fun r' ru' a b e' h1 h2 => ht r' ru' a b e' h1 (List.mem_append_left _ h2))).append
      (ih' ru hr (by rw [Exp.Uses]; exact hu) (fun h => hh (by simp only [Exp.hasAct, Exps.hasAct, Bool.or_eq_true] at h ⊢; simp [h])) _ _ _ rfl (fun r' ru' a b e' h1 h2 => ht r' ru' a b e' h1 (List.mem_append_right _ h2)))
  | optSome h ih => intro ru hr hu hh p evs m' he ht; exact ih ru hr (by simpa [Exp.Uses] using hu) (fun h => hh (by simp only [Exp.hasAct, Exps.hasAct, Bool.or_eq_true] at h ⊢; simp [h])) _ _ _ he ht
  | @nameOk r r' ru' v pos m p' evs' m' h1 h ih =>
    intro ru hr hu hh p evs m' he ht
    cases he
    refine Vok.name h1 hr ?_ (ih ru' h1 (hA r' ru' h1) (fun h => h) _ _ _ rfl (fun r' ru' a b e' h1 h2 => ht r' ru' a b e' h1 (by simp [h2])))
    intro v' hv'
    subst hv'
    rw [Exp.Uses] at hu
    exact ⟨hu.1, hu.2.imp id fun h => h _ h1⟩
  | _ => intro ru hr hu hh p evs m' he ht; cases he; try exact Vok.nil

end
end Potion.Greg
