import Verif.Proof.GregPotion
namespace Potion.Greg

theorem class_unique {t p q} (h : IsClass t p) (h' : IsClass t q) (c : Byte) : p c ↔ q c := by
  obtain ⟨b, h1, h2⟩ := class_ok h
  obtain ⟨b', h3, h4⟩ := class_ok h'
  rw [h1] at h3
  cases h3
  rw [← h2 c, h4 c]

/-- A match has one result. -/
theorem Eval.det {gr : Grammar} {P : Nat → List Byte → Bool} {inp : List Byte} {r e pos m res} (h : Eval gr P inp r e pos m res) :
    ∀ res', Eval gr P inp r e pos m res' → res = res' := by
  induction h with
  | clsOk hp h1 h2 => intro res' h'; cases h' with
    | clsOk => rfl
    | clsFail hp' h3 => exact absurd ((class_unique hp hp' _).1 h2) (h3 _ h1)
  | clsFail hp h1 => intro res' h'; cases h' with
    | clsOk hp' h2 h3 => exact absurd ((class_unique hp hp' _).2 h3) (h1 _ h2)
    | clsFail => rfl
  | altFail h ih => intro res' h'; cases h' with
    | altOk h1 => have := ih _ h1; cases this
    | altFail h1 => exact ih _ h1
  | altNext h h2 ih ih2 => intro res' h'; cases h' with
    | altOk h1 => have := ih _ h1; cases this
    | altNext h1 h3 => have := ih _ h1; cases this; exact ih2 _ h3
  | altOk h ih => intro res' h'; cases h' with
    | altOk h1 => exact ih _ h1
    | altFail h1 => have := ih _ h1; cases this
    | altNext h1 h3 => have := ih _ h1; cases this
  | seqOk h h2 ih ih2 => intro res' h'; cases h' with
    | seqFail h1 => have := ih _ h1; cases this
    | seqOk h1 h3 => have := ih _ h1; cases this; have := ih2 _ h3; cases this; rfl
    | seqFail2 h1 h3 => have := ih _ h1; cases this; have := ih2 _ h3; cases this
  | seqFail2 h h2 ih ih2 => intro res' h'; cases h' with
    | seqFail h1 => have := ih _ h1; cases this
    | seqOk h1 h3 => have := ih _ h1; cases this; have := ih2 _ h3; cases this
    | seqFail2 h1 h3 => have := ih _ h1; cases this; have := ih2 _ h3; cases this; rfl
  | seqFail h ih => intro res' h'; cases h' with
    | seqFail h1 => exact ih _ h1
    | seqOk h1 h3 => have := ih _ h1; cases this
    | seqFail2 h1 h3 => have := ih _ h1; cases this
  | starMore h h2 ih ih2 => intro res' h'; cases h' with
    | starEnd h1 => have := ih _ h1; cases this
    | starMore h1 h3 => have := ih _ h1; cases this; have := ih2 _ h3; cases this; rfl
  | starEnd h ih => intro res' h'; cases h' with
    | starEnd h1 => have := ih _ h1; cases this; rfl
    | starMore h1 h3 => have := ih _ h1; cases this
  | plusOk h h2 ih ih2 => intro res' h'; cases h' with
    | plusFail h1 => have := ih _ h1; cases this
    | plusOk h1 h3 => have := ih _ h1; cases this; have := ih2 _ h3; cases this; rfl
  | plusFail h ih => intro res' h'; cases h' with
    | plusFail h1 => exact ih _ h1
    | plusOk h1 h3 => have := ih _ h1; cases this
  | nameOk hr h ih => intro res' h'; cases h' with
    | nameOk hr' h1 => rw [hr] at hr'; cases hr'; have := ih _ h1; cases this; rfl
    | nameFail hr' h1 => rw [hr] at hr'; cases hr'; have := ih _ h1; cases this
  | nameFail hr h ih => intro res' h'; cases h' with
    | nameOk hr' h1 => rw [hr] at hr'; cases hr'; have := ih _ h1; cases this
    | nameFail hr' h1 => rw [hr] at hr'; cases hr'; exact ih _ h1
  | errOk h ih => intro res' h'; cases h' with
    | errOk h1 => exact ih _ h1
    | errFail h1 => have := ih _ h1; cases this
  | errFail h ih => intro res' h'; cases h' with
    | errOk h1 => have := ih _ h1; cases this
    | errFail h1 => have := ih _ h1; cases this; rfl
  | peekOk h ih => intro res' h'; cases h' with
    | peekOk h1 => have := ih _ h1; cases this; rfl
    | peekFail h1 => have := ih _ h1; cases this
  | peekFail h ih => intro res' h'; cases h' with
    | peekOk h1 => have := ih _ h1; cases this
    | peekFail h1 => exact ih _ h1
  | notOk h ih => intro res' h'; cases h' with
    | notOk h1 => have := ih _ h1; cases this; rfl
    | notFail h1 => have := ih _ h1; cases this
  | notFail h ih => intro res' h'; cases h' with
    | notOk h1 => have := ih _ h1; cases this
    | notFail h1 => have := ih _ h1; cases this; rfl
  | optSome h ih => intro res' h'; cases h' with
    | optSome h1 => exact ih _ h1
    | optNone h1 => have := ih _ h1; cases this
  | optNone h ih => intro res' h'; cases h' with
    | optSome h1 => have := ih _ h1; cases this
    | optNone h1 => have := ih _ h1; cases this; rfl
  | _ => intro res' h'; cases h' <;> first | rfl | simp_all

end Potion.Greg
