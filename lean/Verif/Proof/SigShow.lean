import Verif.Model.SigShow
import Verif.Spec.SigBack
import Verif.Props.Show
/-! Proofs for C81. -/
namespace Potion.Show
open Potion Potion.Bytes Potion.Spec Potion.Dec Potion.Sig

/-- What one element adds, and the two flags after it. -/
def piece (v : Item) (nd : Bool) (comma : Nat) : List Byte × Bool × Nat := match v with
  | .num i =>
    if cInt i = 46 then (chars ".", nd, 0) else if cInt i = 124 then (chars "|", nd, 0) else if cInt i = 58 then (chars ":", true, 0)
    else if nd then (chars "=" ++ valueText (.num i), false, 1) else (chars "=" ++ [BitVec.ofInt 8 (cInt i)], false, 1)
  | v => ((if comma > 0 then chars "," else []) ++ (if nd then chars "=" else []) ++ valueText v, false, comma + 1)

def pieces : List Item → Bool → Nat → List Byte
  | [], _, _ => []
  | v :: l, nd, comma => (piece v nd comma).1 ++ pieces l (piece v nd comma).2.1 (piece v nd comma).2.2

/-- The elements whose texts are known. -/
def Known : Item → Prop
  | .num i => InRange i
  | .other w => w = PN_NIL ∨ w = PN_TRUE ∨ w = PN_FALSE
  | .str _ => True

theorem elem_ok {v : Item} (h : Known v) : elemText v = some (valueText v) := by
  cases v with
  | str s => rfl
  | num i =>
    have h : InRange i := h
    show some (numString (pnNum i)) = some (Datum.int i).text
    rw [numString_text h, Datum.text]
  | other w => rcases h with rfl | rfl | rfl <;> rfl

theorem loop_ok (junk : Nat → Byte) : ∀ (l : List Item) (nd : Bool) (comma : Nat) (b : Buf) (t : List Byte), (∀ v ∈ l, Known v) → Holds b t →
    t.length + (pieces l nd comma).length < 2^31 → ∃ b', sigLoop junk l nd comma (some b) = some b' ∧ Holds b' (t ++ pieces l nd comma)
  | [], nd, comma, b, t, _, hb, _ => ⟨b, rfl, by simpa [pieces] using hb⟩
  | v :: l, nd, comma, b, t, hk, hb, hl => by
    rw [pieces] at hl ⊢
    rw [List.length_append] at hl
    have hk' := fun w hw => hk w (List.mem_cons_of_mem _ hw)
    have go : ∀ b1, Holds b1 (t ++ (piece v nd comma).1) → ∃ b', sigLoop junk l (piece v nd comma).2.1 (piece v nd comma).2.2 (some b1) = some b' ∧
        Holds b' (t ++ ((piece v nd comma).1 ++ pieces l (piece v nd comma).2.1 (piece v nd comma).2.2)) := by
      intro b1 h1
      obtain ⟨b', e, h⟩ := loop_ok junk l (piece v nd comma).2.1 (piece v nd comma).2.2 b1 _ hk' h1 (by rw [List.length_append]; omega)
      exact ⟨b', e, by rw [← List.append_assoc]; exact h⟩
    have other : (∀ i, v ≠ .num i) → sigLoop junk (v :: l) nd comma (some b) =
          sigLoop junk l false (comma + 1) (objOut junk (if nd then lit junk (if comma > 0 then lit junk (some b) "," else some b) "="
            else (if comma > 0 then lit junk (some b) "," else some b)) (elemText v)) ∧
        piece v nd comma = ((if comma > 0 then chars "," else []) ++ (if nd then chars "=" else []) ++ valueText v, false, comma + 1) := by
      intro h
      cases v with
      | num i => exact absurd rfl (h i)
      | str s => exact ⟨rfl, rfl⟩
      | other w => exact ⟨rfl, rfl⟩
    have easy : (∀ i, v ≠ .num i) → ∃ b', sigLoop junk (v :: l) nd comma (some b) = some b' ∧
        Holds b' (t ++ ((piece v nd comma).1 ++ pieces l (piece v nd comma).2.1 (piece v nd comma).2.2)) := by
      intro hv
      obtain ⟨e1, e2⟩ := other hv
      rw [e1]
      rw [e2] at go hl ⊢
      dsimp only at go hl ⊢
      simp only [List.length_append] at hl
      have s1 : ∃ b1, (if comma > 0 then lit junk (some b) "," else some b) = some b1 ∧ Holds b1 (t ++ (if comma > 0 then chars "," else [])) := by
        by_cases hc : comma > 0
        · rw [if_pos hc, if_pos hc]; rw [if_pos hc] at hl; exact lit_ok junk _ hb (by omega)
        · rw [if_neg hc, if_neg hc]; exact ⟨b, rfl, by simpa using hb⟩
      obtain ⟨b1, e3, h1⟩ := s1
      rw [e3]
      have s2 : ∃ b2, (if nd = true then lit junk (some b1) "=" else some b1) = some b2 ∧
          Holds b2 (t ++ (if comma > 0 then chars "," else []) ++ (if nd then chars "=" else [])) := by
        cases nd
        · exact ⟨b1, rfl, by simpa using h1⟩
        · rw [if_pos rfl, if_pos rfl]; rw [if_pos rfl] at hl; exact lit_ok junk _ h1 (by rw [List.length_append]; omega)
      obtain ⟨b2, e4, h2⟩ := s2
      rw [e4, elem_ok (hk v (by simp))]
      obtain ⟨b3, e5, h3⟩ := obj_ok (s := valueText v) junk h2 (by simp only [List.length_append]; omega)
      rw [e5]
      exact go b3 (by simpa using h3)
    cases v with
    | str s => exact easy nofun
    | other w => exact easy nofun
    | num i =>
      rw [sigLoop]
      have hl' := hl
      unfold piece at go hl ⊢
      dsimp only at go hl ⊢
      by_cases h1 : cInt i = 46
      · simp only [h1, if_true] at go hl ⊢
        obtain ⟨b1, e, h⟩ := lit_ok junk "." hb (by omega)
        rw [e]; exact go b1 h
      by_cases h2 : cInt i = 124
      · simp only [h2, if_true, show ¬ (124 : Int) = 46 by decide, if_false] at go hl ⊢
        obtain ⟨b1, e, h⟩ := lit_ok junk "|" hb (by omega)
        rw [e]; exact go b1 h
      by_cases h3 : cInt i = 58
      · simp only [h3, if_true, show ¬ (58 : Int) = 46 by decide, show ¬ (58 : Int) = 124 by decide, if_false] at go hl ⊢
        obtain ⟨b1, e, h⟩ := lit_ok junk ":" hb (by omega)
        rw [e]; exact go b1 h
      simp only [h1, h2, h3, if_false] at go hl ⊢
      cases nd
      · simp only [Bool.false_eq_true, if_false] at go hl ⊢
        obtain ⟨b1, e, h⟩ := printf_spec hb junk (chars "=" ++ [BitVec.ofInt 8 (cInt i)]) (by omega)
        rw [e]; exact go b1 h
      · simp only [if_true] at go hl ⊢
        rw [List.length_append] at hl
        obtain ⟨b1, e, h⟩ := lit_ok junk "=" hb (by omega)
        rw [e, elem_ok (hk _ (by simp))]
        obtain ⟨b2, e2, h'⟩ := obj_ok (s := valueText (.num i)) junk h (by rw [List.length_append]; omega)
        rw [e2]; exact go b2 (by simpa using h')

theorem cInt_ne {i k : Int} (hk : 0 ≤ k ∧ k < 2^31) (h : i % 2 ^ 32 ≠ k) : cInt i ≠ k := by
  unfold cInt; rw [Int.bmod_def]; omega
theorem cInt_small {i : Int} (h : 0 ≤ i ∧ i < 256) : cInt i = i := by
  unfold cInt; rw [Int.bmod_def]; omega
theorem letter_small {b : Byte} (h : b ∈ typeLetters) : cInt b.toNat = b.toNat ∧ (b.toNat : Int) ≠ 46 ∧ (b.toNat : Int) ≠ 58 ∧ (b.toNat : Int) ≠ 124 := by
  refine ⟨cInt_small (by have := b.isLt; omega), ?_⟩
  have : ∀ b : Byte, b ∈ typeLetters → b.toNat ≠ 46 ∧ b.toNat ≠ 58 ∧ b.toNat ≠ 124 := by decide +kernel
  have := this b h
  omega

theorem pieces_text : ∀ (ds : List Decl) (c : Nat), (∀ d ∈ ds, d.Plain) →
    pieces (encode ds) false c = (if decide (c > 0) && startsParam ds then chars "," else []) ++ sigText ds
  | [], c, _ => by simp [encode, pieces, sigText, startsParam]
  | d :: ds, c, h => by
    have hd := h d (by simp)
    have ih := fun c => pieces_text ds c fun d hd => h d (by simp [hd])
    have e0 : encode (d :: ds) = d.items ++ encode ds := rfl
    rw [e0, sigText]
    cases d with
    | bar =>
      show pieces (.num 124 :: encode ds) false c = _
      rw [pieces, show piece (.num 124) false c = (chars "|", false, 0) from rfl, ih]
      simp [startsParam, Decl.isParam, Decl.text]
    | dot =>
      show pieces (.num 46 :: encode ds) false c = _
      rw [pieces, show piece (.num 46) false c = (chars ".", false, 0) from rfl, ih]
      simp [startsParam, Decl.isParam, Decl.text]
    | param n k =>
      have ec : (if decide (c > 0) && startsParam (.param n k :: ds) then chars "," else []) = if c > 0 then chars "," else [] := by
        simp [startsParam, Decl.isParam]
      have e1 : piece (.str n) false c = ((if c > 0 then chars "," else []) ++ [] ++ n, false, c + 1) := rfl
      rw [ec]
      cases k with
      | plain =>
        show pieces (.str n :: encode ds) false c = _
        rw [pieces, e1, ih]
        simp [Decl.isParam, Decl.text]
      | modified t m => exact absurd hd id
      | typed x =>
        obtain ⟨-, b, hb, rfl⟩ := hd
        obtain ⟨e2, h1, h2, h3⟩ := letter_small hb
        show pieces (.str n :: .num b.toNat :: encode ds) false c = _
        rw [pieces, e1, pieces, show piece (.num b.toNat) false (c + 1) = (chars "=" ++ [BitVec.ofInt 8 b.toNat], false, 1) by
          unfold piece; simp only [e2]; rw [if_neg h1, if_neg h3, if_neg h2]; rfl, ih]
        simp [Decl.isParam, Decl.text]
      | deflt v =>
        obtain ⟨-, hv⟩ := hd
        show pieces (.str n :: .num 58 :: v :: encode ds) false c = _
        rw [pieces, e1, pieces, show piece (.num 58) false (c + 1) = (chars ":", true, 0) from rfl, pieces]
        have e3 : ∃ m, piece v true 0 = (chars "=" ++ valueText v, false, m + 1) := by
          cases v with
          | str s => exact absurd hv id
          | num i =>
            obtain ⟨-, h1, h2, h3⟩ := hv
            refine ⟨0, ?_⟩
            unfold piece; dsimp only
            rw [if_neg (cInt_ne (by omega) h1), if_neg (cInt_ne (by omega) h3), if_neg (cInt_ne (by omega) h2)]; rfl
          | other w => exact ⟨0, rfl⟩
        obtain ⟨m, e3⟩ := e3
        dsimp only
        rw [e3, ih]
        simp [Decl.isParam, Decl.text, chars]

theorem known_encode {ds : List Decl} (h : ∀ d ∈ ds, d.Plain) : ∀ v ∈ encode ds, Known v := by
  intro v hv
  obtain ⟨d, hd, hv⟩ := List.mem_flatMap.1 hv
  have hp := h d hd
  cases d with
  | bar => simp [Decl.items] at hv; subst hv; show InRange 124; unfold InRange; omega
  | dot => simp [Decl.items] at hv; subst hv; show InRange 46; unfold InRange; omega
  | param n k =>
    cases k with
    | plain => simp [Decl.items] at hv; subst hv; trivial
    | modified t m => exact absurd hp id
    | typed c =>
      obtain ⟨-, b, hb, rfl⟩ := hp
      simp [Decl.items] at hv
      rcases hv with rfl | rfl
      · trivial
      · show InRange _; have := b.isLt; unfold InRange; omega
    | deflt w =>
      obtain ⟨-, hw⟩ := hp
      simp [Decl.items] at hv
      rcases hv with rfl | rfl | rfl
      · trivial
      · show InRange 58; unfold InRange; omega
      · cases v with
        | str s => trivial
        | num i => exact hw.1
        | other w => exact hw

end Potion.Show
