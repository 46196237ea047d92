import Verif.Proof.SyntaxStr
/-! Literals. -/
namespace Potion.Peg
open Potion Potion.Spec

/-- First bytes of literals. -/
def litByte (c : Byte) : Bool := isDigitChar c || decide (c = 0x27#8) || decide (c = 0x22#8) || decide (c ∈ chars "ntf")

theorem immed_value {s t : _} {w k} (ha : Aft w k) (h : G immed (s ++ (w ++ k)) (some (t, w ++ k))) :
    G (.nt .value) (s ++ (w ++ k)) (some (ast .value t, k)) := by
  obtain ⟨u, hw⟩ := ws_ok ha.space ha.stop
  exact Gives.nt (Gives.alt1 (Gives.act (left_ok h hw)))

theorem digits_cons {ds} (hd : IsInt ds) : ∃ d r, ds = d :: r ∧ d < 10 := by
  rcases hd.2 with rfl | ⟨d, r, rfl, h⟩
  · exact ⟨0, [], rfl, by omega⟩
  · exact ⟨d, r, rfl, hd.1 d (by simp)⟩

/-- Numbers are not read as something else. -/
theorem immed_number {m ds i t k} (hm : Sign m ds) (hd : IsInt ds) (hi : Head (fun c => c ≠ 0x78#8) i)
    (h : G number (m ++ (ds.map digitChar ++ i)) (some (t, k))) : G immed (m ++ (ds.map digitChar ++ i)) (some (t, k)) := by
  have hh := hex_fail hm hd hi
  have f : ∀ s ∈ ["nil", "true", "false"], G (word s) (m ++ (ds.map digitChar ++ i)) none := by
    obtain ⟨d, r, rfl, h10⟩ := digits_cons hd
    intro s hs
    simp only [List.mem_cons, List.not_mem_nil, or_false] at hs
    rcases hm with rfl | ⟨rfl, _⟩
    · rcases hs with rfl | rfl | rfl <;> (refine fails_first _ (by decide) (by decide) ?_; interval_cases d <;> decide)
    · rcases hs with rfl | rfl | rfl <;> exact fails_first _ (by decide) (by decide) (by decide)
  exact ((f "nil" (by simp)).actFail).alt2 (((f "true" (by simp)).actFail).alt2 (((f "false" (by simp)).actFail).alt2
    ((hh.actFail).alt2 h.alt1)))

theorem cont_x {k} (h : Head (fun c => contChar c = false) k) : Head (fun c => c ≠ 0x78#8) k :=
  h.mono fun c hc e => by subst e; exact absurd hc (by decide)
theorem tail_x {x} (h : IsTail x) (k) : Head (fun c => c ≠ 0x78#8) (x ++ k) := by
  obtain ⟨c, r, rfl, rfl | rfl⟩ := tail_head h <;> exact Head.cons (by decide)

theorem int_value {m ds w k} (hm : Sign m ds) (hd : IsInt ds) (ha : Aft w k) : G (.nt .value) (m ++ ds.map digitChar ++ (w ++ k))
    (some (ast .value (.imm (pnNum (if m = [] then numeral 10 ds else -(numeral 10 ds : Int)))), k)) := by
  refine immed_value ha ?_
  rw [List.append_assoc]
  exact immed_number hm hd (cont_x ha.cont) (number_ok hm hd ha.cont ha.frac)
theorem dbl_value {m ds x w k} (hm : Sign m ds) (hd : IsInt ds) (hx : IsTail x) (ha : Aft w k) :
    G (.nt .value) (m ++ (ds.map digitChar ++ x) ++ (w ++ k)) (some (ast .value (.dbl (m ++ (ds.map digitChar ++ x))), k)) := by
  refine immed_value ha ?_
  have := immed_number hm hd (tail_x hx (w ++ k)) (dblNumber_ok hm hd hx ha.cont)
  simpa only [List.append_assoc] using this

theorem lit_ok' {s v} (h : Reads .lit s v) {w k} (ha : Aft w k) :
    (∃ c r, s = c :: r ∧ litByte c = true) ∧ G (.nt .value) (s ++ (w ++ k)) (some (v, k)) := by
  have fin : ∀ {t}, G immed (s ++ (w ++ k)) (some (t, w ++ k)) → G (.nt .value) (s ++ (w ++ k)) (some (ast .value t, k)) :=
    immed_value ha
  cases h with
  | @int ds hd =>
    have h := int_value (m := []) (.inl rfl) hd ha
    obtain ⟨d, r, rfl, h10⟩ := digits_cons hd
    exact ⟨⟨digitChar d, r.map digitChar, by simp, by simp [litByte, digitChar_digit h10]⟩, h⟩
  | @dbl ds x hd hx =>
    have h := dbl_value (m := []) (.inl rfl) hd hx ha
    obtain ⟨d, r, rfl, h10⟩ := digits_cons hd
    exact ⟨⟨digitChar d, r.map digitChar ++ x, by simp, by simp [litByte, digitChar_digit h10]⟩, h⟩
  | nil =>
    refine ⟨⟨0x6E#8, _, rfl, by decide⟩, fin (t := .nil) ?_⟩
    obtain ⟨v, h⟩ := word_ok (s := "nil") ha.cont
    exact Gives.alt1 (Gives.act (g := fun _ => Tree.nil) h)
  | true =>
    refine ⟨⟨0x74#8, _, rfl, by decide⟩, fin ?_⟩
    obtain ⟨v, h⟩ := word_ok (s := "true") ha.cont
    exact Gives.alt2 (fails_first _ (by decide) (by decide) (by decide)) (Gives.alt1 (Gives.act (g := fun _ => .imm PN_TRUE) h))
  | false =>
    refine ⟨⟨0x66#8, _, rfl, by decide⟩, fin ?_⟩
    obtain ⟨v, h⟩ := word_ok (s := "false") ha.cont
    exact Gives.alt2 (fails_first _ (by decide) (by decide) (by decide)) (Gives.alt2 (fails_first _ (by decide) (by decide) (by decide))
      (Gives.alt1 (Gives.act (g := fun _ => .imm PN_FALSE) h)))
  | @hex ds cs hd hn =>
    refine ⟨⟨0x30#8, _, rfl, by decide⟩, fin ?_⟩
    have := Gives.act (g := fun | .str s => .imm (Dec.hexLiteral s) | v => v) (hex_ok hd hn (k := w ++ k) ha.cont)
    have e : Dec.hexLiteral cs = pnNum (numeral 16 ds) := by
      unfold Dec.hexLiteral
      rw [Dec.atoi_plain 16 hd, Dec.pnNum_wrap]
    dsimp only at this
    rw [e] at this
    rw [List.append_assoc]
    exact (fails_first _ (by decide) (by decide) (by decide)).alt2 ((fails_first _ (by decide) (by decide) (by decide)).alt2
      ((fails_first _ (by decide) (by decide) (by decide)).alt2 this.alt1))
  | @str s v h =>
    cases h with
    | @single s v h =>
      refine ⟨⟨0x27#8, _, rfl, by decide⟩, fin ?_⟩
      have := str1_ok h ha.cont
      have e : 0x27#8 :: (s ++ [0x27#8]) ++ (w ++ k) = 0x27#8 :: (s ++ 0x27#8 :: (w ++ k)) := by simp
      rw [e]
      exact (fails_first _ (by decide) (by decide) (by decide)).alt2 ((fails_first _ (by decide) (by decide) (by decide)).alt2
        ((fails_first _ (by decide) (by decide) (by decide)).alt2 ((fails_first _ (by decide) (by decide) (by decide)).alt2
        ((fails_first _ (by decide) (by decide) (by decide)).alt2 this.alt1))))
    | @double s v h =>
      refine ⟨⟨0x22#8, _, rfl, by decide⟩, fin ?_⟩
      have := str2_ok h (w ++ k)
      have e : 0x22#8 :: (s ++ [0x22#8]) ++ (w ++ k) = 0x22#8 :: (s ++ 0x22#8 :: (w ++ k)) := by simp
      rw [e]
      exact (fails_first _ (by decide) (by decide) (by decide)).alt2 ((fails_first _ (by decide) (by decide) (by decide)).alt2
        ((fails_first _ (by decide) (by decide) (by decide)).alt2 ((fails_first _ (by decide) (by decide) (by decide)).alt2
        ((fails_first _ (by decide) (by decide) (by decide)).alt2 ((fails_first _ (by decide) (by decide) (by decide)).alt2 this)))))

end Potion.Peg
