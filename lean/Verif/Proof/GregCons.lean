import Verif.Proof.GregPotion
namespace Potion.Greg

section
variable {gr : Grammar} {P : Nat → List Byte → Bool} {inp : List Byte}

/-- Finitely many successful matches cannot go back. -/
theorem eval_le {r e pos m res} (h : Eval gr P inp r e pos m res) : ∀ p evs m', res = .ok p evs m' → pos ≤ p := fun p evs m' he =>
  (eval_moves (nul := fun _ => true) (fun _ _ _ _ => rfl) h p evs m' he).1

theorem consumes_ok {r e pos m res} (h : Eval gr P inp r e pos m res) : ∀ f reached, (e.consumes (consumesRule gr f reached)).1 = true → ∀ p evs m', res = .ok p evs m' → pos < p := by
  induction h with
  | anyOk h => intro f rs hc p evs m' he; cases he; omega
  | chrOk h => intro f rs hc p evs m' he; cases he; omega
  | clsOk _ h _ => intro f rs hc p evs m' he; cases he; omega
  | @strOk r pos m s h =>
    intro f rs hc p evs m' he; cases he
    rw [Exp.consumes] at hc
    cases s with
    | nil => simp at hc
    | cons c s => simp only [List.length_cons]; omega
  | errOk h ih => intro f rs hc p evs m' he; exact ih f rs (by rwa [Exp.consumes] at hc) _ _ _ he
  | altOk h ih =>
    intro f rs hc p evs m' he
    rw [Exp.consumes, Exps.altConsumes] at hc
    refine ih f rs ?_ _ _ _ he
    split at hc
    · next h => exact h
    · cases hc
  | altNext h h' ih ih' =>
    intro f rs hc p evs m' he
    rw [Exp.consumes, Exps.altConsumes] at hc
    refine ih' f rs ?_ _ _ _ he
    rw [Exp.consumes]
    split at hc
    · exact hc
    · cases hc
  | seqOk h h' ih ih' =>
    intro f rs hc p evs m' he
    cases he
    rw [Exp.consumes, Exps.seqConsumes] at hc
    have h1 := eval_le h _ _ _ rfl
    have h2 := eval_le h' _ _ _ rfl
    split at hc
    · next hx => have := ih f rs hx _ _ _ rfl; omega
    · have := ih' f rs (by rw [Exp.consumes]; exact hc) _ _ _ rfl; omega
  | plusOk h h' ih ih' =>
    intro f rs hc p evs m' he
    cases he
    rw [Exp.consumes] at hc
    have h2 := eval_le h' _ _ _ rfl
    have := ih f rs hc _ _ _ rfl; omega
  | @nameOk r r' ru v pos m p' evs m' h1 h ih =>
    intro f rs hc p evs m' he
    cases he
    rw [Exp.consumes] at hc
    cases f with
    | zero => rw [consumesRule] at hc; cases hc
    | succ f =>
      rw [consumesRule] at hc
      split at hc
      · cases hc
      · rw [h1] at hc
        exact ih f _ hc _ _ _ rfl
  | seqNil => intro f rs hc p evs m' he; simp [Exp.consumes, Exps.seqConsumes] at hc
  | _ => intro f rs hc p evs m' he; first | (cases he; done) | (rw [Exp.consumes] at hc; cases hc)

/-! No false alarm. -/

theorem nodup_le : ∀ (n : Nat) (l : List Nat), l.Nodup → (∀ x, x ∈ l → x < n) → l.length ≤ n
  | 0, l, _, h => by
    cases l with
    | nil => exact Nat.le_refl _
    | cons x l => exact absurd (h x (List.mem_cons_self ..)) (Nat.not_lt_zero _)
  | n+1, l, hn, h => by
    have := nodup_le n (l.erase n) (hn.erase n) (fun x hx => by
      have := (hn.mem_erase_iff).1 hx
      have := h x this.2
      omega)
    rw [List.length_erase] at this
    split at this <;> omega

variable {nul : Nat → Bool} {nm : Nat → Bool × List Nat} {ok : Nat → Bool} {n : Nat} (hnm : ∀ r, ok r = true → r < n → (nm r).2 = [] ∧ ((nm r).1 = false → nul r = true))
include hnm
mutual
theorem quiet_exp : ∀ e : Exp, e.fine nul n = true → e.heads nul ok = true → (e.consumes nm).2 = [] ∧ ((e.consumes nm).1 = false → e.null nul = true)
  | .any => fun _ _ => by simp [Exp.consumes]
  | .chr _ => fun _ _ => by simp [Exp.consumes]
  | .str s => fun _ _ => by simp [Exp.consumes, Exp.null]
  | .cls _ => fun _ _ => by simp [Exp.consumes]
  | .name r v => fun hf hh => by
    rw [Exp.heads] at hh
    rw [Exp.fine, decide_eq_true_eq] at hf
    rw [Exp.consumes, Exp.null]; exact hnm r hh hf
  | .act _ => fun _ _ => by simp [Exp.consumes, Exp.null]
  | .pred _ => fun _ _ => by simp [Exp.consumes, Exp.null]
  | .open => fun _ _ => by simp [Exp.consumes, Exp.null]
  | .close => fun _ _ => by simp [Exp.consumes, Exp.null]
  | .err e _ => fun hf hh => by rw [Exp.consumes, Exp.null]; exact quiet_exp e (by rwa [Exp.fine] at hf) (by rwa [Exp.heads] at hh)
  | .plus e => fun hf hh => by
    rw [Exp.fine, Bool.and_eq_true] at hf
    rw [Exp.consumes, Exp.null]; exact quiet_exp e hf.2 (by rwa [Exp.heads] at hh)
  | .peek _ => fun _ _ => by simp [Exp.consumes, Exp.null]
  | .not _ => fun _ _ => by simp [Exp.consumes, Exp.null]
  | .opt _ => fun _ _ => by simp [Exp.consumes, Exp.null]
  | .star _ => fun _ _ => by simp [Exp.consumes, Exp.null]
  | .alt l => fun hf hh => by
    rw [Exp.heads] at hh
    rw [Exp.consumes, Exp.null]
    cases l with
    | nil => rw [Exp.fine] at hf; cases hf
    | cons e l =>
      rw [Exp.fine] at hf
      · exact (quiet_list (.cons e l) hf).1 hh
      · simp
  | .seq l => fun hf hh => by
    rw [Exp.heads] at hh
    rw [Exp.fine] at hf
    rw [Exp.consumes, Exp.null]
    exact (quiet_list l hf).2 hh
theorem quiet_list : ∀ l : Exps, l.fine nul n = true →
    (l.altHeads nul ok = true → (l.altConsumes nm).2 = [] ∧ ((l.altConsumes nm).1 = false → l.someNull nul = true)) ∧
    (l.seqHeads nul ok = true → (l.seqConsumes nm).2 = [] ∧ ((l.seqConsumes nm).1 = false → l.allNull nul = true))
  | .nil => fun _ => by simp [Exps.altConsumes, Exps.seqConsumes, Exps.allNull]
  | .cons e l => fun hf => by
    rw [Exps.fine, Bool.and_eq_true] at hf
    have ih := quiet_list l hf.2
    refine ⟨fun hh => ?_, fun hh => ?_⟩
    · rw [Exps.altHeads, Bool.and_eq_true] at hh
      have h1 := quiet_exp e hf.1 hh.1
      have h2 := ih.1 hh.2
      rw [Exps.altConsumes, Exps.someNull]
      split
      · refine ⟨by rw [h1.1, h2.1]; rfl, fun h => ?_⟩
        rw [h2.2 h, Bool.or_true]
      · next hc => exact ⟨h1.1, fun _ => by rw [h1.2 (by simpa using hc)]; rfl⟩
    · rw [Exps.seqHeads, Bool.and_eq_true] at hh
      have h1 := quiet_exp e hf.1 hh.1
      rw [Exps.seqConsumes, Exps.allNull]
      split
      · exact ⟨h1.1, fun h => by cases h⟩
      · next hc =>
        have hc := h1.2 (by simpa using hc)
        have h2 := ih.2 (by simpa [hc] using hh.2)
        refine ⟨by rw [h1.1, h2.1]; rfl, fun h => ?_⟩
        rw [hc, h2.2 h]; rfl
end
omit hnm

theorem quiet_rule {rank : Nat → Nat} (he : Ends gr nul rank) : ∀ (f : Nat) (reached : List Nat) (r : Nat), f + reached.length = gr.length + 1 → reached.Nodup →
    (∀ x, x ∈ reached → x < gr.length ∧ rank r < rank x) → r < gr.length →
    (consumesRule gr f reached r).2 = [] ∧ ((consumesRule gr f reached r).1 = false → nul r = true)
  | 0, reached, r, hf, hn, hx, hr => by
    have := nodup_le gr.length reached hn (fun x h => (hx x h).1)
    omega
  | f+1, reached, r, hf, hn, hx, hr => by
    have hnot : r ∉ reached := fun h => Nat.lt_irrefl _ (hx r h).2
    rw [consumesRule, if_neg (by simpa using hnot), List.getElem?_eq_getElem hr]
    have hr' : gr[r]? = some gr[r] := List.getElem?_eq_getElem hr
    have := quiet_exp (nul := nul) (nm := consumesRule gr f (r :: reached)) (ok := fun r' => decide (rank r' < rank r)) (n := gr.length)
      (fun r' hok hlt => by
        have hok := of_decide_eq_true hok
        refine quiet_rule he f (r :: reached) r' (by simp only [List.length_cons]; omega) (List.nodup_cons.2 ⟨hnot, hn⟩) (fun x h => ?_) hlt
        rcases List.mem_cons.1 h with rfl | h
        · exact ⟨hr, hok⟩
        · exact ⟨(hx x h).1, Nat.lt_trans hok (hx x h).2⟩)
      gr[r].body (he.hfine r _ hr') (he.hrank r _ hr')
    exact ⟨this.1, fun h => he.hnul r _ hr' (this.2 h)⟩

theorem no_warnings {rank : Nat → Nat} (he : Ends gr nul rank) : warnings gr = [] := by
  rw [warnings, List.flatMap_eq_nil_iff]
  intro r hr
  exact (quiet_rule he (gr.length + 1) [] r rfl List.nodup_nil (fun x h => by cases h) (List.mem_range.1 hr)).1

end
end Potion.Greg
