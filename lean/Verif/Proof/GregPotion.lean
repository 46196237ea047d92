import Verif.Proof.GregCheck
namespace Potion.Greg

/-! Potion's grammar satisfies what is required. -/

/-- Rules that match the empty text; ranks of the rules. -/
def potionNul : List Nat := [0, 1, 17, 95, 96, 101]
def potionRank : List Nat := [18, 17, 16, 15, 14, 13, 12, 11, 10, 9, 8, 7, 6, 5, 4, 0, 3, 6, 5, 4, 2, 1, 1, 1, 1, 2, 0, 1, 3, 2, 0, 0, 1, 0, 0, 0, 0, 0, 0, 0, 0, 0, 0, 0, 0, 0, 0, 0, 0, 0, 0, 0, 0, 0, 0, 0, 0, 0, 0, 0, 0, 0, 0, 0, 0, 0, 0, 0, 0, 0, 0, 0, 0, 0, 0, 0, 0, 2, 1, 0, 1, 1, 1, 1, 1, 1, 1, 1, 0, 0, 2, 1, 2, 2, 3, 1, 1, 1, 0, 0, 0, 0, 6, 5, 4, 3, 1, 0, 0, 2, 0, 0, 0]

def nulOf (l : List Nat) (r : Nat) : Bool := l.contains r
def rankOf (l : List Nat) (r : Nat) : Nat := l.getD r 0

/-- All checks for rule number `r`. -/
def chkRule (gr : Grammar) (nul : Nat → Bool) (rank : Nat → Nat) (r : Nat) (ru : Rule) : Bool :=
  (!ru.body.null nul || nul r) && ru.body.fine nul gr.length && ru.body.heads nul (fun r' => decide (rank r' < rank r)) &&
  ru.body.chk (fun r' => ru.body.hasAct || (match gr[r']? with | some ru' => decide (ru'.nvars ≠ 0) | none => true)) ru.nvars

def chkAll (gr : Grammar) (nul : Nat → Bool) (rank : Nat → Nat) : Bool := (List.range gr.length).all fun r => match gr[r]? with
  | some ru => chkRule gr nul rank r ru
  | none => true

theorem chkAll_rule {gr : Grammar} {nul : Nat → Bool} {rank : Nat → Nat} (h : chkAll gr nul rank = true) {r : Nat} {ru : Rule} (hr : gr[r]? = some ru) :
    chkRule gr nul rank r ru = true := by
  rw [chkAll, List.all_eq_true] at h
  have := h r (List.mem_range.2 (List.getElem?_eq_some_iff.1 hr).1)
  simpa [hr] using this

theorem chkAll_ends {gr : Grammar} {nul : Nat → Bool} {rank : Nat → Nat} (h : chkAll gr nul rank = true) : Ends gr nul rank := by
  refine ⟨fun r ru hr hn => ?_, fun r ru hr => ?_, fun r ru hr => ?_⟩ <;>
  · have := chkAll_rule h hr
    simp only [chkRule, Bool.and_eq_true] at this
    first | exact this.1.1.2 | exact this.1.2 | (have := this.1.1.1; simpa [hn] using this)

theorem chkAll_good {gr : Grammar} {nul : Nat → Bool} {rank : Nat → Nat} (h : chkAll gr nul rank = true) (r : Nat) (ru : Rule) (hr : gr[r]? = some ru) :
    ru.body.Ascii ∧ ru.body.Good := by
  have := chkAll_rule h hr
  simp only [chkRule, Bool.and_eq_true] at this
  have := chk_ok (A := fun _ _ e (y : Nat) => (e, y)) (ok := fun _ => True) (fun _ _ => trivial) ru.body this.2
  exact ⟨this.1, this.2.1⟩

theorem chkAll_uses {α : Type} {A : Nat → List Byte → (Nat → α) → α → (Nat → α) × α} {gr : Grammar} {nul : Nat → Bool} {rank : Nat → Nat} (h : chkAll gr nul rank = true)
    (r : Nat) (ru : Rule) (hr : gr[r]? = some ru) (hA : ∀ a, a ∈ ru.body.acts → Local A ru.nvars a) : ru.body.Uses A (Deep gr ru) ru.nvars := by
  have := chkAll_rule h hr
  simp only [chkRule, Bool.and_eq_true] at this
  refine (chk_ok (fun r' h => ?_) ru.body this.2).2.2 hA
  rw [Bool.or_eq_true] at h
  rcases h with h | h
  · exact .inl h
  · refine .inr fun ru' hr' => ?_
    rw [hr'] at h
    simpa using h

theorem potion_chk : chkAll potionGrammar (nulOf potionNul) (rankOf potionRank) = true := by decide +kernel

end Potion.Greg
