import Verif.Proof.SigText3
namespace Potion.Greg
open Potion.Peg (PExp NT Tree Kind)
open Potion.Spec (Blank Gap Reads chars node1)
open Potion.Sig (IsParam IsSet IsList IsArgs IsSig Decl ParamName typeLetters modifiers encode)

/-! ### Parameters -/

theorem push_adds {a t env y env' y' l} (h : sigAct a t env y = (env', y')) (ha : sigAct a t env y = srcPush l env y) : Adds (l.map itemOf) y y' := by
  rw [ha, srcPush] at h
  injection h with h1 h2
  subst h2
  refine ⟨fun s hs => ⟨l, ?_, rfl⟩, rfl⟩
  show (match y.2.source with | .tup s => Tree.tup (s ++ l) | v => v) = _
  rw [hs]

theorem Adds.pre {l y y1 y'} (h : Adds l y1 y') (h1 : y1.2.source = y.2.source) (h2 : y1.2.failed = y.2.failed) : Adds l y y' :=
  (Adds.none h1 h2).trans h

theorem byte_num (c : Byte) : itemOf (.imm (pnNum c.toNat)) = .num c.toNat := itemOf_num (BitVec.isLt c)

theorem letter_byte : ∀ c : Byte, Spec.isLetter c = true → (c ∉ Spec.blanks ∧ c ∉ Spec.newlines ∧ c ≠ 0x23#8) ∧ c ∉ modifiers ∧ Spec.isDigitChar c = false ∧ c ≠ 0x2E#8 ∧ c ≠ 0x7C#8 := by decide +kernel
theorem modifier_byte : ∀ c : Byte, c ∈ modifiers → (c ∉ Spec.blanks ∧ c ∉ Spec.newlines ∧ c ≠ 0x23#8) ∧ Peg.mayStart Peg.nulls Peg.firsts c Peg.utff = false ∧ Spec.isDigitChar c = false ∧ c ≠ 0x2E#8 ∧ c ≠ 0x7C#8 := by decide +kernel
theorem type_byte : ∀ c : Byte, c ∈ typeLetters → (c ∉ Spec.blanks ∧ c ∉ Spec.newlines ∧ c ≠ 0x23#8) := by decide +kernel

/-- The first byte of a parameter. -/
def Starts (s : List Byte) : Prop := ∃ c r, s = c :: r ∧ (c ∉ Spec.blanks ∧ c ∉ Spec.newlines ∧ c ≠ 0x23#8) ∧ Spec.isDigitChar c = false

theorem name_starts {x} (h : ParamName x) (s) : Starts (x ++ s) := by
  obtain ⟨c, r, rfl, hc, -⟩ := h
  have := letter_byte c hc
  exact ⟨c, r ++ s, rfl, this.1, this.2.2.1⟩

theorem IsParam.starts {s d} (h : IsParam s d) : Starts s := by
  cases h with
  | plain h => have := name_starts h []; rwa [List.append_nil] at this
  | typed h => exact name_starts h _
  | deflt h => exact name_starts h _
  | modified h => have := modifier_byte _ h; exact ⟨_, _, rfl, this.1, this.2.2.1⟩
  | modifiedTyped h => have := modifier_byte _ h; exact ⟨_, _, rfl, this.1, this.2.2.1⟩
  | rest => exact ⟨0x2E#8, _, rfl, by decide, by decide⟩

theorem Starts.ws {s k} (h : Starts s) : Peg.WsStop (s ++ k) := by
  obtain ⟨c, r, rfl, h, -⟩ := h
  exact Peg.Head.cons ⟨h.1, h.2.2⟩

theorem blank_cont {w k} (hw : Blank w) (hk : Peg.Head (fun c => Peg.contChar c = false) k) : Peg.Head (fun c => Peg.contChar c = false) (w ++ k) := by
  cases w with
  | nil => exact hk
  | cons c w =>
    have : ∀ c : Byte, c ∈ Spec.blanks → Peg.contChar c = false := by decide +kernel
    exact Peg.Head.cons (this c (hw c (by simp)))

section
variable {P : Nat → List Byte → Bool} {inp : List Byte}
local notation "Ev'" => Eval potionGrammar P inp
local notation "Run'" => Runs sigAct inp
local notation "D" => Does P inp
local notation "M" => Miss P inp

theorem rest_d {w k} (hw : Blank w) (hk : Peg.WsStop k) : D (.name R.arg_rest none) (chars "..." ++ (w ++ k)) k (Ka [.num 46]) := by
  refine (Does.name (A := Adds [.num 46]) rfl (Does.cons (K1 := Kq) (j := w ++ k) ?_ (Does.cons (sp_d hw hk) (Does.cons .act .nil))) ?_).mono fun env y env' y' h => h
  · intro r pos m hp hi
    have hl : pos + 3 ≤ inp.length := by
      have := congrArg List.length hi
      simp only [List.length_drop, List.length_append] at this
      have h3 : (chars "...").length = 3 := by decide
      omega
    refine ⟨pos + 3, [], m, hl, ?_, .strOk ?_, fun env envs y s' hx => ?_⟩
    · rw [← List.drop_drop, hi]; rfl
    · rw [hi]; exact ⟨w ++ k, rfl⟩
    · cases hx; exact ⟨env, y, rfl, rfl, rfl⟩
  · rintro env y env' y' ⟨_, _, ⟨rfl, rfl⟩, _, _, ⟨rfl, rfl⟩, _, _, ⟨t, e⟩, rfl, rfl⟩
    exact push_adds (l := [.imm (pnNum 46)]) e rfl

theorem arg_name_miss {v i} (h : Peg.G Peg.argName i none) : M (.name R.arg_name v) i := miss_of S.argName h
theorem modifier_miss {v i} (h : Peg.Head (fun c => c ∉ modifiers) i) : M (.name R.arg_modifier v) i := miss_of S.argModifier (modifier_fail h)
theorem assign_miss {i} (h : Peg.Head (fun c => c ≠ 0x3D#8) i) : M (.name R.assign none) i := miss_of S.assign (assign_fail h)
theorem defassign_miss {i} (h : Peg.Head (fun c => c ≠ 0x3A#8) i) : M (.name R.defassign none) i := miss_of S.defassign (defassign_fail h)

theorem param_d {s d w k} (h : IsParam s d) (hw : Blank w) (hk : Fin k) : D (.name R.arg none) (s ++ (w ++ k)) k (Ka d.items) := by
  have nomod : ∀ {x i}, ParamName x → M (.name R.arg_modifier (some 3)) (x ++ i) := by
    rintro x i ⟨c, r, rfl, hc, -⟩
    exact modifier_miss (Peg.Head.cons (letter_byte c hc).2.1)
  have fin1 : Peg.Head (fun c => c ≠ 0x3D#8) k := hk.head.mono (by decide +kernel)
  have fin2 : Peg.Head (fun c => c ≠ 0x3A#8) k := hk.head.mono (by decide +kernel)
  have nm : ∀ {x}, ParamName x → D (.name R.arg_name (some 2)) (x ++ (w ++ k)) k (Kv (some 2) (.str x)) := fun hx =>
    name_d hx hw (blank_cont hw hk.cont) hk.ws
  have eqs : ∀ {x w' g c}, ParamName x → Blank w' → Gap false g → c ∈ typeLetters →
      D (.name R.arg_name (some 2)) (x ++ (w' ++ (chars "=" ++ (g ++ [c]))) ++ (w ++ k)) (chars "=" ++ (g ++ (c :: (w ++ k)))) (Kv (some 2) (.str x)) ∧
      D (.name R.assign none) (chars "=" ++ (g ++ (c :: (w ++ k)))) (c :: (w ++ k)) Kq ∧
      D (.name R.arg_type (some 1)) (c :: (w ++ k)) k (Kv (some 1) (.imm (pnNum c.toNat))) := by
    intro x w' g c hx hw' hg hc
    have h0 : Peg.Head (fun c => Peg.contChar c = false) (chars "=" ++ (g ++ (c :: (w ++ k)))) := Peg.Head.cons (by decide +kernel)
    have h1 : Peg.WsStop (chars "=" ++ (g ++ (c :: (w ++ k)))) := Peg.Head.cons (by decide +kernel)
    refine ⟨?_, assign_d hg (Peg.Head.cons (type_byte c hc)), type_d hc hw hk.ws⟩
    have := name_d (P := P) (inp := inp) (v := some 2) hx hw' (blank_cont hw' h0) h1
    simpa using this
  refine (Does.name (K := fun _ y _ y' => Adds d.items y y') (A := Adds d.items) rfl ?_ fun _ _ _ _ h => h).mono fun env y env' y' h => h
  cases h with
  | @plain x hx =>
    refine Does.next (Miss.head (nomod hx)) (Does.next (Miss.head (nomod hx)) (Does.next (Miss.tail (nm hx) (Miss.head (assign_miss fin1)))
      (Does.next (Miss.tail (nm hx) (Miss.head (defassign_miss fin2))) (Does.alt ((Does.cons (nm hx) (Does.cons .act .nil)).mono ?_)))))
    rintro env y env' y' ⟨_, y1, ⟨rfl, e1, e2, e3⟩, _, _, ⟨t, e⟩, rfl, rfl⟩
    have := push_adds (l := [y1.1]) e rfl
    rw [e1] at this
    exact this.pre e2 e3
  | @typed x w' g c hx hw' hg hc =>
    obtain ⟨d1, d2, d3⟩ := eqs hx hw' hg hc
    rw [List.append_assoc] at d1 ⊢
    refine Does.next (Miss.head (nomod hx)) (Does.next (Miss.head (nomod hx)) (Does.alt ((Does.cons d1 (Does.cons d2 (Does.cons d3 (Does.cons .act .nil)))).mono ?_)))
    rintro env y env' y' ⟨_, _, ⟨rfl, e1, e2, e3⟩, _, y1, ⟨rfl, rfl⟩, _, y2, ⟨rfl, e4, e5, e6⟩, _, _, ⟨t, e⟩, rfl, rfl⟩
    have := push_adds (l := [y1.1, y2.1]) e rfl
    rw [e1, e4] at this
    simp only [List.map_cons, List.map_nil, byte_num] at this
    exact this.pre (e5.trans e2) (e6.trans e3)
  | @deflt x w' g s v hx hw' hg hs =>
    have hst : ∃ c r, s = c :: r ∧ (c ∉ Spec.blanks ∧ c ∉ Spec.newlines ∧ c ≠ 0x23#8) := by
      obtain ⟨⟨c, r, rfl, hc⟩, -⟩ := Peg.reads_parse hs
      have key : ∀ c : Byte, Peg.argByte c = true → (c ∉ Spec.blanks ∧ c ∉ Spec.newlines ∧ c ≠ 0x23#8) := by decide +kernel
      exact ⟨c, r, rfl, key c hc⟩
    have h0 : Peg.Head (fun c => Peg.contChar c = false) (chars ":=" ++ (g ++ (s ++ (w ++ k)))) := Peg.Head.cons (by decide +kernel)
    have h1 : Peg.WsStop (chars ":=" ++ (g ++ (s ++ (w ++ k)))) := Peg.Head.cons (by decide +kernel)
    have d1 := name_d (P := P) (inp := inp) (v := some 2) hx hw' (blank_cont hw' h0) h1
    have d2 : D (.name R.defassign none) (chars ":=" ++ (g ++ (s ++ (w ++ k)))) (s ++ (w ++ k)) Kq := defassign_d hg (by
      obtain ⟨c, r, rfl, hc⟩ := hst; exact Peg.Head.cons hc)
    have d3 := value_d (P := P) (inp := inp) (v := some 0) hs (hk.aft hw)
    have e0 : x ++ (w' ++ (chars ":=" ++ (g ++ s))) ++ (w ++ k) = x ++ (w' ++ (chars ":=" ++ (g ++ (s ++ (w ++ k))))) := by simp
    rw [e0]
    have as : Peg.Head (fun c => c ≠ 0x3D#8) (chars ":=" ++ (g ++ (s ++ (w ++ k)))) := Peg.Head.cons (by decide +kernel)
    refine Does.next (Miss.head (nomod hx)) (Does.next (Miss.head (nomod hx)) (Does.next (Miss.tail d1 (Miss.head (assign_miss as)))
      (Does.alt ((Does.cons d1 (Does.cons d2 (Does.cons d3 (Does.cons .act .nil)))).mono ?_))))
    rintro env y env' y' ⟨_, _, ⟨rfl, e1, e2, e3⟩, _, y1, ⟨rfl, rfl⟩, _, y2, ⟨rfl, e4, e5, e6⟩, _, _, ⟨t, e⟩, rfl, rfl⟩
    have := push_adds (l := [y1.1, .imm (pnNum 58), part0 y2.1]) e rfl
    rw [e1, e4] at this
    have h58 : itemOf (.imm (pnNum 58)) = .num 58 := by decide +kernel
    simp only [List.map_cons, List.map_nil, h58] at this
    exact this.pre (e5.trans e2) (e6.trans e3)
  | @modified m x hm hx =>
    refine Does.next (Miss.tail (modifier_d hm) (Miss.tail (nm hx) (Miss.head (assign_miss fin1))))
      (Does.alt ((Does.cons (modifier_d hm) (Does.cons (nm hx) (Does.cons .act .nil))).mono ?_))
    rintro env y env' y' ⟨_, y0, ⟨rfl, e01, e02, e03⟩, _, y1, ⟨rfl, e1, e2, e3⟩, _, _, ⟨t, e⟩, rfl, rfl⟩
    have := push_adds (l := [y1.1, .imm 0#64, y0.1]) e rfl
    rw [e1, e01] at this
    have h58 : itemOf (.imm 0#64) = .other 0 := by decide +kernel
    simp only [List.map_cons, List.map_nil, h58, byte_num] at this
    exact this.pre (e2.trans e02) (e3.trans e03)
  | @modifiedTyped m x w' g c hm hx hw' hg hc =>
    obtain ⟨d1, d2, d3⟩ := eqs hx hw' hg hc
    rw [List.cons_append]
    refine Does.alt ((Does.cons (modifier_d hm) (Does.cons d1 (Does.cons d2 (Does.cons d3 (Does.cons .act .nil))))).mono ?_)
    rintro env y env' y' ⟨_, y0, ⟨rfl, e01, e02, e03⟩, _, _, ⟨rfl, e1, e2, e3⟩, _, y1, ⟨rfl, rfl⟩, _, y2, ⟨rfl, e4, e5, e6⟩, _, _, ⟨t, e⟩, rfl, rfl⟩
    have := push_adds (l := [y1.1, y2.1, y0.1]) e rfl
    rw [e1, e4, e01] at this
    simp only [List.map_cons, List.map_nil, byte_num] at this
    exact this.pre (e5.trans (e2.trans e02)) (e6.trans (e3.trans e03))
  | rest =>
    have n1 : ∀ {i v}, M (.name R.arg_name v) (chars "..." ++ i) := arg_name_miss (name_fail (Peg.Head.cons (by decide +kernel)))
    have n2 : ∀ {i v}, M (.name R.arg_modifier v) (chars "..." ++ i) := modifier_miss (Peg.Head.cons (by decide +kernel))
    refine Does.next (Miss.head n2) (Does.next (Miss.head n2) (Does.next (Miss.head n1) (Does.next (Miss.head n1) (Does.next (Miss.head n1) (Does.alt
      ((rest_d hw hk.ws).mono ?_))))))
    rintro env y env' y' ⟨-, h⟩
    exact h

end
end Potion.Greg
