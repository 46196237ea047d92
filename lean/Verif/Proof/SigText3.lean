import Verif.Proof.SigText2
namespace Potion.Greg
open Potion.Peg (PExp NT Tree Kind)
open Potion.Spec (Blank Gap Reads chars node1)
open Potion.Sig (IsParam IsSet IsList IsArgs IsSig Decl ParamName typeLetters modifiers encode)

/-! ### Tokens of signatures -/

theorem chars_cons : chars "=" = [0x3D#8] ∧ chars ":=" = [0x3A#8, 0x3D#8] ∧ chars "," = [0x2C#8] ∧ chars "|" = [0x7C#8] ∧ chars "." = [0x2E#8] ∧ chars "..." = [0x2E#8, 0x2E#8, 0x2E#8] := by
  decide

/-- What may follow a parameter. -/
structure Fin (k : List Byte) : Prop where
  head : Peg.Head (fun c => c = 0x2C#8 ∨ c = 0x7C#8 ∨ c = 0x2E#8) k
  frac : Peg.NoFrac k

theorem fin_byte : ∀ c : Byte, (c = 0x2C#8 ∨ c = 0x7C#8 ∨ c = 0x2E#8) → (c ∉ Spec.blanks ∧ c ≠ 0x23#8) ∧ Peg.contChar c = false := by
  rintro c (rfl | rfl | rfl) <;> decide +kernel

theorem Fin.ws {k} (h : Fin k) : Peg.WsStop k := h.head.mono fun c hc => (fin_byte c hc).1
theorem Fin.cont {k} (h : Fin k) : Peg.Head (fun c => Peg.contChar c = false) k := h.head.mono fun c hc => (fin_byte c hc).2
theorem Fin.aft {k w} (h : Fin k) (hw : Blank w) : Peg.Aft w k := Peg.aft_of (.inl hw) h.ws fun _ => ⟨h.cont, h.frac⟩
theorem Fin.nil : Fin [] := ⟨Peg.Head.nil, by intro d r h; cases h⟩

theorem paramName_ok {x w k} (hx : ParamName x) (hw : Blank w) (hk : Peg.Head (fun c => Peg.contChar c = false) (w ++ k)) (hs : Peg.WsStop k) :
    Peg.G Peg.argName (x ++ (w ++ k)) (some (.str x, k)) := by
  obtain ⟨c, r, rfl, hc, hr⟩ := hx
  have hr : ∀ d ∈ r, Peg.wordByte d = true := fun d hd => by rw [Peg.wordByte, Bool.or_eq_true]; exact hr d hd
  obtain ⟨v, h1⟩ := Peg.word_star hr (.of hk)
  obtain ⟨u, h2⟩ := Peg.ws_ok (.inl hw) hs
  exact Peg.left_ok (Peg.Gives.cap (t := c :: r) ((Peg.utff_ok hc _).seq h1)) h2

theorem modifier_ok {m k} (hm : m ∈ modifiers) : Peg.G Peg.argModifier (m :: k) (some (.imm (pnNum m.toNat), k)) := by
  have key : ∀ q, Peg.G q (m :: k) (some (.none, k)) → Peg.G (.act Peg.charNum (.cap q)) (m :: k) (some (.imm (pnNum m.toNat), k)) :=
    fun q h => Peg.Gives.act (g := Peg.charNum) (Peg.Gives.cap (t := [m]) h)
  refine key _ ?_
  have hf : ∀ a b : Byte, a ≠ b → Peg.G (.lit [b]) (a :: k) none := fun a b hab => Peg.lit_fail fun r e => hab (List.cons.inj e).1
  have hm : m = 0x2D#8 ∨ m = 0x5C#8 ∨ m = 0x2A#8 := by
    have : modifiers = [0x2D#8, 0x5C#8, 0x2A#8] := by decide
    rw [this] at hm; simpa using hm
  rcases hm with rfl | rfl | rfl
  · exact Peg.Gives.alt1 (Peg.lit_ok [0x2D#8] k)
  · exact (hf _ 0x2D#8 (by decide)).alt2 (Peg.Gives.alt1 (Peg.lit_ok [0x5C#8] k))
  · exact (hf _ 0x2D#8 (by decide)).alt2 ((hf _ 0x5C#8 (by decide)).alt2 (Peg.lit_ok [0x2A#8] k))

theorem modifier_fail {k} (h : Peg.Head (fun c => c ∉ modifiers) k) : Peg.G Peg.argModifier k none :=
  Peg.fails_head (by decide) (by decide) (h.mono (by decide +kernel))

theorem type_ok {c w k} (hc : c ∈ typeLetters) (hw : Blank w) (hk : Peg.WsStop k) : Peg.G Peg.argType (c :: (w ++ k)) (some (.imm (pnNum c.toNat), k)) := by
  obtain ⟨u, h2⟩ := Peg.ws_ok (.inl hw) hk
  exact Peg.Gives.act (g := Peg.charNum) (Peg.left_ok (Peg.Gives.cap (t := [c]) (Peg.chr_ok (decide_eq_true hc))) h2)

theorem name_fail {k} (h : Peg.Head (fun c => Peg.mayStart Peg.nulls Peg.firsts c Peg.utff = false) k) : Peg.G Peg.argName k none :=
  Peg.fails_head (by decide) (by decide) (h.mono (by decide +kernel))

theorem assign_fail {k} (h : Peg.Head (fun c => c ≠ 0x3D#8) k) : Peg.G Peg.assign k none :=
  Peg.fails_head (by decide) (by decide) (h.mono (by decide +kernel))
theorem defassign_fail {k} (h : Peg.Head (fun c => c ≠ 0x3A#8) k) : Peg.G Peg.defassign k none :=
  Peg.fails_head (by decide) (by decide) (h.mono (by decide +kernel))

theorem itemOf_num {n : Nat} (h : n < 256) : itemOf (.imm (pnNum n)) = .num n := by
  revert n; decide +kernel

section
variable {P : Nat → List Byte → Bool} {inp : List Byte}
local notation "Ev'" => Eval potionGrammar P inp
local notation "Run'" => Runs sigAct inp
local notation "D" => Does P inp
local notation "M" => Miss P inp

theorem name_d {v x w k} (hx : ParamName x) (hw : Blank w) (hk : Peg.Head (fun c => Peg.contChar c = false) (w ++ k)) (hs : Peg.WsStop k) :
    D (.name R.arg_name v) (x ++ (w ++ k)) k (Kv v (.str x)) :=
  value_of (fun f => @argName_ok P inp f) S.argName (by decide +kernel) (by decide +kernel) (paramName_ok hx hw hk hs) (.inl ⟨_, rfl⟩)
theorem modifier_d {v m k} (hm : m ∈ modifiers) : D (.name R.arg_modifier v) (m :: k) k (Kv v (.imm (pnNum m.toNat))) :=
  value_of (fun f => @argModifier_ok P inp f) S.argModifier (by decide +kernel) (by decide +kernel) (modifier_ok hm) (.inr ⟨_, rfl⟩)
theorem type_d {v c w k} (hc : c ∈ typeLetters) (hw : Blank w) (hk : Peg.WsStop k) : D (.name R.arg_type v) (c :: (w ++ k)) k (Kv v (.imm (pnNum c.toNat))) :=
  value_of (fun f => @argType_ok P inp f) S.argType (by decide +kernel) (by decide +kernel) (type_ok hc hw hk) (.inr ⟨_, rfl⟩)
theorem assign_d {g k} (hg : Gap false g) (hk : Peg.WslStop k) : D (.name R.assign none) (chars "=" ++ (g ++ k)) k Kq := quiet_of S.assign (Peg.t2_ok hg hk)
theorem defassign_d {g k} (hg : Gap false g) (hk : Peg.WslStop k) : D (.name R.defassign none) (chars ":=" ++ (g ++ k)) k Kq := quiet_of S.defassign (Peg.t2_ok hg hk)
theorem sp_d {w k} (hw : Blank w) (hk : Peg.WsStop k) : D (.name R.sp none) (w ++ k) k Kq := quiet_of S.sp (Peg.ws_ok (.inl hw) hk)

/-! ### Values -/

variable (P inp) in
/-- `e` reads from `i` to `j`, without strings. -/
def Calm (e : Exp) (i j : List Byte) : Prop := ∀ r pos m, pos ≤ inp.length → inp.drop pos = i →
  ∃ p evs m', p ≤ inp.length ∧ inp.drop p = j ∧ Ev' r e pos m (.ok p evs m') ∧ Tame evs

theorem Calm.alt {e l i j} (h : Calm P inp e i j) : Calm P inp (.alt (.cons e l)) i j := by
  intro r pos m hp hi
  obtain ⟨p, evs, m', h1, h2, h3, h4⟩ := h r pos m hp hi
  exact ⟨p, evs, m', h1, h2, .altOk h3, h4⟩

theorem Calm.next {e e' l i j} (h0 : M e i) (h : Calm P inp (.alt (.cons e' l)) i j) : Calm P inp (.alt (.cons e (.cons e' l))) i j := by
  intro r pos m hp hi
  obtain ⟨m0, h0⟩ := h0 r pos m hp hi
  obtain ⟨p, evs, m', h1, h2, h3, h4⟩ := h r pos m0 hp hi
  exact ⟨p, evs, m', h1, h2, .altNext h0 h3, h4⟩

theorem Calm.rule {r v a q i j} (hs : Same (.name r v) q) (h : Peg.Goes q i j) (hm : isMild r = true) (hr : r < potionGrammar.length) (ha : loud a = false) :
    Calm P inp (sequ [.name r v, .act a]) i j := by
  intro r' pos m hp hi
  obtain ⟨t, h⟩ := h
  obtain ⟨p, evs, m', f, h1, h2, h3, -⟩ := ok_of (P := P) hs h hr (r' := r') (m := m) hp hi
  refine ⟨p, _, m', h1, h2, .seqOk h3 (.seqOk .act .seqNil), ?_⟩
  refine (mild_tame h3 (by rw [Exp.mild]; exact hm) _ _ _ rfl).app (Tame.app ?_ .nil)
  intro r a' b e hm
  rw [List.mem_singleton] at hm
  cases hm; exact ha

theorem Calm.name {r v i j} {ru : Rule} (hr : potionGrammar[r]? = some ru) (h : Calm P inp ru.body i j) : Calm P inp (.name r v) i j := by
  intro r' pos m hp hi
  obtain ⟨p, evs, m', h1, h2, h3, h4⟩ := h r pos m hp hi
  refine ⟨p, _, m', h1, h2, .nameOk hr h3, ?_⟩
  intro r1 a b e hm
  rw [List.cons_append, List.mem_cons, List.mem_append, List.mem_cons] at hm
  rcases hm with hm | hm | hm | hm
  · cases hm
  · exact h4 r1 a b e hm
  · cases hm
  · cases v with
    | none => cases hm
    | some v => rw [Option.map_some, Option.toList_some, List.mem_singleton] at hm; cases hm

theorem number_calm {m ds w k} (hm : Peg.Sign m ds) (hd : Spec.IsInt ds) (ha : Peg.Aft w k) :
    Calm P inp (.name R.immed (some 1)) (m ++ ds.map Spec.digitChar ++ (w ++ k)) (w ++ k) ∧
    Peg.G Peg.immed (m ++ ds.map Spec.digitChar ++ (w ++ k))
      (some (.imm (pnNum (if m = [] then Spec.numeral 10 ds else -(Spec.numeral 10 ds : Int))), w ++ k)) := by
  have m1 : ∀ {i} , Peg.G (Peg.word "nil") i none → M (sequ [.name R.nil_ none, .act 92]) i := fun h => Miss.head (miss_of S.nil h)
  have m2 : ∀ {i} , Peg.G (Peg.word "true") i none → M (sequ [.name R.true_ none, .act 93]) i := fun h => Miss.head (miss_of S.true h)
  have m3 : ∀ {i} , Peg.G (Peg.word "false") i none → M (sequ [.name R.false_ none, .act 94]) i := fun h => Miss.head (miss_of S.false h)
  have m4 : ∀ {i} , Peg.G Peg.hex i none → M (sequ [.name R.hex none, .act 95]) i := fun h => Miss.head (miss_of S.hexP h)
  have hn := Peg.number_ok hm hd ha.cont ha.frac
  have hh := Peg.hex_fail hm hd (Peg.cont_x ha.cont)
  have f : ∀ s ∈ ["nil", "true", "false"], Peg.G (Peg.word s) (m ++ (ds.map Spec.digitChar ++ (w ++ k))) none := by
    obtain ⟨d, r, rfl, h10⟩ := Peg.digits_cons hd
    intro s hs
    simp only [List.mem_cons, List.not_mem_nil, or_false] at hs
    rcases hm with rfl | ⟨rfl, _⟩
    · rcases hs with rfl | rfl | rfl <;> (refine Peg.fails_first _ (by decide) (by decide) ?_; interval_cases d <;> decide)
    · rcases hs with rfl | rfl | rfl <;> exact Peg.fails_first _ (by decide) (by decide) (by decide)
  rw [List.append_assoc]
  refine ⟨Calm.name rfl ?_, Peg.immed_number hm hd (Peg.cont_x ha.cont) hn⟩
  exact Calm.next (m1 (f _ (by simp))) (Calm.next (m2 (f _ (by simp))) (Calm.next (m3 (f _ (by simp))) (Calm.next (m4 hh)
    (Calm.alt (Calm.rule S.dec ⟨_, hn⟩ (by decide +kernel) (by decide +kernel) (by decide))))))

theorem immed_calm {s x w k} (h : Reads .arg s (node1 .value (.imm x))) (ha : Peg.Aft w k) : Calm P inp (.name R.immed (some 1)) (s ++ (w ++ k)) (w ++ k) ∧
    Peg.G Peg.immed (s ++ (w ++ k)) (some (.imm x, w ++ k)) := by
  generalize hv : node1 .value (.imm x) = v at h
  have m1 : ∀ {i} , Peg.G (Peg.word "nil") i none → M (sequ [.name R.nil_ none, .act 92]) i := fun h => Miss.head (miss_of S.nil h)
  have m2 : ∀ {i} , Peg.G (Peg.word "true") i none → M (sequ [.name R.true_ none, .act 93]) i := fun h => Miss.head (miss_of S.true h)
  have m3 : ∀ {i} , Peg.G (Peg.word "false") i none → M (sequ [.name R.false_ none, .act 94]) i := fun h => Miss.head (miss_of S.false h)
  have m4 : ∀ {i} , Peg.G Peg.hex i none → M (sequ [.name R.hex none, .act 95]) i := fun h => Miss.head (miss_of S.hexP h)
  cases h with
  | @argNeg ds hd hn =>
    cases hv
    exact number_calm (m := chars "-") (.inr ⟨rfl, hn⟩) hd ha
  | argNegDbl => cases hv
  | argLit h =>
  cases h with
  | dbl => cases hv
  | @int ds hd =>
    cases hv
    exact number_calm (m := []) (.inl rfl) hd ha
  | nil =>
    cases hv
    obtain ⟨v, h⟩ := Peg.word_ok (s := "nil") ha.cont
    exact ⟨Calm.name rfl (Calm.alt (Calm.rule S.nil ⟨_, h⟩ (by decide +kernel) (by decide +kernel) (by decide))),
      Peg.Gives.alt1 (Peg.Gives.act (g := fun _ => Tree.nil) h)⟩
  | true =>
    cases hv
    obtain ⟨v, h⟩ := Peg.word_ok (s := "true") ha.cont
    have f1 : Peg.G (Peg.word "nil") (chars "true" ++ (w ++ k)) none := Peg.fails_first _ (by decide) (by decide) (by decide)
    exact ⟨Calm.name rfl (Calm.next (m1 f1) (Calm.alt (Calm.rule S.true ⟨_, h⟩ (by decide +kernel) (by decide +kernel) (by decide)))),
      Peg.Gives.alt2 f1.actFail (Peg.Gives.alt1 (Peg.Gives.act (g := fun _ => .imm PN_TRUE) h))⟩
  | false =>
    cases hv
    obtain ⟨v, h⟩ := Peg.word_ok (s := "false") ha.cont
    have f1 : Peg.G (Peg.word "nil") (chars "false" ++ (w ++ k)) none := Peg.fails_first _ (by decide) (by decide) (by decide)
    have f2 : Peg.G (Peg.word "true") (chars "false" ++ (w ++ k)) none := Peg.fails_first _ (by decide) (by decide) (by decide)
    exact ⟨Calm.name rfl (Calm.next (m1 f1) (Calm.next (m2 f2) (Calm.alt (Calm.rule S.false ⟨_, h⟩ (by decide +kernel) (by decide +kernel) (by decide))))),
      Peg.Gives.alt2 f1.actFail (Peg.Gives.alt2 f2.actFail (Peg.Gives.alt1 (Peg.Gives.act (g := fun _ => .imm PN_FALSE) h)))⟩
  | @hex ds cs hd hn =>
    cases hv
    have hh := Peg.hex_ok hd hn ha.cont
    have f : ∀ s ∈ ["nil", "true", "false"], Peg.G (Peg.word s) (chars "0x" ++ (cs ++ (w ++ k))) none := by
      intro s hs
      simp only [List.mem_cons, List.not_mem_nil, or_false] at hs
      rcases hs with rfl | rfl | rfl <;> exact Peg.fails_first _ (by decide) (by decide) (by decide)
    have e : Dec.hexLiteral cs = pnNum (Spec.numeral 16 ds) := by
      unfold Dec.hexLiteral
      rw [Dec.atoi_plain 16 hd, Dec.pnNum_wrap]
    have := Peg.Gives.act (g := fun | .str s => .imm (Dec.hexLiteral s) | v => v) hh
    dsimp only at this
    rw [e] at this
    rw [List.append_assoc]
    refine ⟨Calm.name rfl ?_, ((f "nil" (by simp)).actFail).alt2 (((f "true" (by simp)).actFail).alt2 (((f "false" (by simp)).actFail).alt2 this.alt1))⟩
    exact Calm.next (m1 (f _ (by simp))) (Calm.next (m2 (f _ (by simp))) (Calm.next (m3 (f _ (by simp)))
      (Calm.alt (Calm.rule S.hexP ⟨_, hh⟩ (by decide +kernel) (by decide +kernel) (by decide)))))
  | str => cases hv

theorem value_d {v s x w k} (h : Reads .arg s (node1 .value (.imm x))) (ha : Peg.Aft w k) : D (.name R.value_ v) (s ++ (w ++ k)) k (Kv v (node1 .value (.imm x))) := by
  obtain ⟨h1, h2⟩ := immed_calm (P := P) (inp := inp) h ha
  have h3 : D (.name R.immed (some 1)) (s ++ (w ++ k)) (w ++ k) (Kv (some 1) (.imm x)) := by
    intro r pos m hp hi
    obtain ⟨p, evs, m', h4, h5, h6, h7⟩ := h1 r pos m hp hi
    refine ⟨p, evs, m', h4, h5, h6, fun env envs y s' hx => ?_⟩
    have hx := tame_runs hx h7
    have hsrc := tame_src hx h7
    obtain ⟨f, h2⟩ := h2
    obtain ⟨y1, hy, rfl⟩ := name_step (@immed_ok P inp f) hp h6 ⟨f, Nat.le_refl _, by rw [hi]; exact h2⟩ hx
    exact ⟨_, _, rfl, rfl, (Solid.eq (.inr ⟨_, rfl⟩) hy.1), hsrc, hy.2 .imm⟩
  have h4 : D (.name R.sp none) (w ++ k) k Kq := quiet_of S.sp (Peg.ws_ok ha.space ha.stop)
  refine (Does.name (A := fun y y' => y'.1 = node1 .value (.imm x) ∧ y'.2.source = y.2.source ∧ y'.2.failed = y.2.failed) rfl
    (Does.alt (Does.cons h3 (Does.cons h4 (Does.cons .act .nil)))) ?_).mono fun env y env' y' h => h
  rintro env y env' y' ⟨env1, y1, ⟨rfl, e1, e2, e3⟩, env2, y2, ⟨rfl, rfl⟩, env3, y3, ⟨t, e4⟩, rfl, rfl⟩
  have e5 : y' = (ast1 .value (asg env (some 1) y2 1).1, y2.2) := (congrArg Prod.snd e4).symm
  rw [e5]
  refine ⟨?_, e2, e3⟩
  simp only [asg, if_true, e1]
  rfl

end
end Potion.Greg
