import Verif.Proof.GregTop
namespace Potion.Greg

section
variable {gr : Grammar} {P : Nat → List Byte → Bool} {inp : List Byte} {nul : Nat → Bool}

theorem eval_moves (hn : ∀ (r : Nat) ru, gr[r]? = some ru → ru.body.null nul = true → nul r = true) {r e pos m res} (h : Eval gr P inp r e pos m res) :
    ∀ p evs m', res = .ok p evs m' → pos ≤ p ∧ (e.null nul = false → pos < p) ∧ (pos ≤ inp.length → p ≤ inp.length) := by
  induction h with
  | anyOk h => intro p evs m' he; cases he; have := (List.getElem?_eq_some_iff.1 h).1; exact ⟨by omega, fun _ => by omega, fun _ => by omega⟩
  | chrOk h => intro p evs m' he; cases he; have := (List.getElem?_eq_some_iff.1 h).1; exact ⟨by omega, fun _ => by omega, fun _ => by omega⟩
  | clsOk _ h _ => intro p evs m' he; cases he; have := (List.getElem?_eq_some_iff.1 h).1; exact ⟨by omega, fun _ => by omega, fun _ => by omega⟩
  | @strOk r pos m s h =>
    intro p evs m' he; cases he
    have := h.length_le
    rw [List.length_drop] at this
    refine ⟨by omega, fun h => ?_, fun _ => by omega⟩
    rw [Exp.null] at h
    cases s with
    | nil => simp at h
    | cons c s => simp only [List.length_cons]; omega
  | errOk h ih => intro p evs m' he; have := ih _ _ _ he; simpa [Exp.null] using this
  | @altOk r e l pos m p' evs m' h ih =>
    intro p evs m' he
    have := ih _ _ _ he
    refine ⟨this.1, fun h => this.2.1 ?_, this.2.2⟩
    rw [Exp.null, Exps.someNull, Bool.or_eq_false_iff] at h
    exact h.1
  | altNext h h' ih ih' =>
    intro p evs m' he
    have := ih' _ _ _ he
    refine ⟨this.1, fun h => this.2.1 ?_, this.2.2⟩
    rw [Exp.null, Exps.someNull, Bool.or_eq_false_iff] at h
    rw [Exp.null]; exact h.2
  | @seqOk r e l pos m p1 ev1 m1 p2 ev2 m2 h h' ih ih' =>
    intro p evs m' he
    cases he
    have h1 := ih _ _ _ rfl
    have h2 := ih' _ _ _ rfl
    refine ⟨by omega, fun h => ?_, fun h => h2.2.2 (h1.2.2 h)⟩
    rw [Exp.null, Exps.allNull, Bool.and_eq_false_iff] at h
    rcases h with h | h
    · have := h1.2.1 h; omega
    · have := h2.2.1 (by rw [Exp.null]; exact h); omega
  | starMore h h' ih ih' =>
    intro p evs m' he
    cases he
    have h1 := ih _ _ _ rfl
    have h2 := ih' _ _ _ rfl
    exact ⟨by omega, fun h => by simp [Exp.null] at h, fun h => h2.2.2 (h1.2.2 h)⟩
  | plusOk h h' ih ih' =>
    intro p evs m' he
    cases he
    have h1 := ih _ _ _ rfl
    have h2 := ih' _ _ _ rfl
    refine ⟨by omega, fun h => ?_, fun h => h2.2.2 (h1.2.2 h)⟩
    rw [Exp.null] at h
    have := h1.2.1 h; omega
  | optSome h ih => intro p evs m' he; have := ih _ _ _ he; exact ⟨this.1, fun h => by simp [Exp.null] at h, this.2.2⟩
  | @nameOk r r' ru v pos m p' evs m' h1 h ih =>
    intro p evs m' he
    cases he
    have := ih _ _ _ rfl
    refine ⟨this.1, fun h => this.2.1 ?_, this.2.2⟩
    rw [Exp.null] at h
    cases hb : ru.body.null nul with
    | false => rfl
    | true => rw [hn _ _ h1 hb] at h; cases h
  | _ => intro p evs m' he; cases he; try exact ⟨Nat.le_refl _, fun h => by simp_all [Exp.null, Exps.allNull], fun h => h⟩

/-- There is a result. -/
def Tot (gr : Grammar) (P : Nat → List Byte → Bool) (inp : List Byte) (e : Exp) (pos : Nat) : Prop := ∀ r m, ∃ res, Eval gr P inp r e pos m res

variable (hn : ∀ (r : Nat) ru, gr[r]? = some ru → ru.body.null nul = true → nul r = true) {ok : Nat → Bool} {pos : Nat} (hpos : pos ≤ inp.length)
  (later : ∀ pos', pos < pos' → pos' ≤ inp.length → ∀ e : Exp, e.fine nul gr.length = true → e.Good → Tot gr P inp e pos')
  (hok : ∀ r, ok r = true → r < gr.length → ∀ v, Tot gr P inp (.name r v) pos)

include hn hpos later hok
mutual
theorem tot_exp : ∀ e : Exp, e.fine nul gr.length = true → e.Good → e.heads nul ok = true → Tot gr P inp e pos
  | .any => fun _ _ _ r m => by
    cases h : inp[pos]? with
    | none => exact ⟨_, .anyFail h⟩
    | some c => exact ⟨_, .anyOk h⟩
  | .chr c => fun _ _ _ r m => by
    by_cases h : inp[pos]? = some c
    · exact ⟨_, .chrOk h⟩
    · exact ⟨_, .chrFail h⟩
  | .str s => fun _ _ _ r m => by
    by_cases h : s <+: inp.drop pos
    · exact ⟨_, .strOk h⟩
    · exact ⟨_, .strFail h⟩
  | .cls t => fun _ hg _ r m => by
    rw [Exp.Good] at hg
    obtain ⟨p, hp⟩ := hg
    by_cases h : ∃ c, inp[pos]? = some c ∧ p c
    · obtain ⟨c, h1, h2⟩ := h
      exact ⟨_, .clsOk hp h1 h2⟩
    · exact ⟨_, .clsFail hp fun c h1 h2 => h ⟨c, h1, h2⟩⟩
  | .name r' v => fun hf _ hh => by
    rw [Exp.heads] at hh
    rw [Exp.fine] at hf
    exact hok r' hh (by simpa using hf) v
  | .act a => fun _ _ _ r m => ⟨_, .act⟩
  | .pred p => fun _ _ _ r m => by
    cases h : P p (slice inp m.b m.e) with
    | true => exact ⟨_, .predOk h⟩
    | false => exact ⟨_, .predFail h⟩
  | .open => fun _ _ _ r m => ⟨_, .open⟩
  | .close => fun _ _ _ r m => ⟨_, .close⟩
  | .err e j => fun hf hg hh r m => by
    obtain ⟨res, h⟩ := tot_exp e (by simpa [Exp.fine] using hf) (by simpa [Exp.Good] using hg) (by simpa [Exp.heads] using hh) r m
    cases res with
    | fail m' => exact ⟨_, .errFail h⟩
    | ok p evs m' => exact ⟨_, .errOk h⟩
  | .alt l => fun hf hg hh r m => by
    rw [Exp.Good] at hg
    rw [Exp.heads] at hh
    cases l with
    | nil => exact absurd rfl hg.1
    | cons e l => rw [Exp.fine] at hf; exact (tot_list (.cons e l) hf hg.2).1 hg.1 hh r m; simp
  | .seq l => fun hf hg hh r m => by
    rw [Exp.Good] at hg
    rw [Exp.heads] at hh
    rw [Exp.fine] at hf
    exact (tot_list l hf hg).2 hh r m
  | .peek e => fun hf hg hh r m => by
    obtain ⟨res, h⟩ := tot_exp e (by simpa [Exp.fine] using hf) (by simpa [Exp.Good] using hg) (by simpa [Exp.heads] using hh) r m
    cases res with
    | fail m' => exact ⟨_, .peekFail h⟩
    | ok p evs m' => exact ⟨_, .peekOk h⟩
  | .not e => fun hf hg hh r m => by
    obtain ⟨res, h⟩ := tot_exp e (by simpa [Exp.fine] using hf) (by simpa [Exp.Good] using hg) (by simpa [Exp.heads] using hh) r m
    cases res with
    | fail m' => exact ⟨_, .notOk h⟩
    | ok p evs m' => exact ⟨_, .notFail h⟩
  | .opt e => fun hf hg hh r m => by
    obtain ⟨res, h⟩ := tot_exp e (by simpa [Exp.fine] using hf) (by simpa [Exp.Good] using hg) (by simpa [Exp.heads] using hh) r m
    cases res with
    | fail m' => exact ⟨_, .optNone h⟩
    | ok p evs m' => exact ⟨_, .optSome h⟩
  | .star e => fun hf hg hh r m => by
    have hf' : e.null nul = false ∧ e.fine nul gr.length = true := by simpa [Exp.fine] using hf
    obtain ⟨res, h⟩ := tot_exp e hf'.2 (by simpa [Exp.Good] using hg) (by simpa [Exp.heads] using hh) r m
    cases res with
    | fail m' => exact ⟨_, .starEnd h⟩
    | ok p evs m' =>
      have hm := eval_moves hn h _ _ _ rfl
      obtain ⟨res2, h2⟩ := later p (hm.2.1 hf'.1) (hm.2.2 hpos) (.star e) hf hg r m'
      cases res2 with
      | fail m2 => cases h2
      | ok p2 ev2 m2 => exact ⟨_, .starMore h h2⟩
  | .plus e => fun hf hg hh r m => by
    have hf' : e.null nul = false ∧ e.fine nul gr.length = true := by simpa [Exp.fine] using hf
    obtain ⟨res, h⟩ := tot_exp e hf'.2 (by simpa [Exp.Good] using hg) (by simpa [Exp.heads] using hh) r m
    cases res with
    | fail m' => exact ⟨_, .plusFail h⟩
    | ok p evs m' =>
      have hm := eval_moves hn h _ _ _ rfl
      obtain ⟨res2, h2⟩ := later p (hm.2.1 hf'.1) (hm.2.2 hpos) (.star e) (by simpa [Exp.fine] using hf') (by simpa [Exp.Good] using hg) r m'
      cases res2 with
      | fail m2 => cases h2
      | ok p2 ev2 m2 => exact ⟨_, .plusOk h h2⟩
theorem tot_list : ∀ l : Exps, l.fine nul gr.length = true → l.Good →
    (l ≠ .nil → l.altHeads nul ok = true → Tot gr P inp (.alt l) pos) ∧ (l.seqHeads nul ok = true → Tot gr P inp (.seq l) pos)
  | .nil => fun _ _ => ⟨fun h => absurd rfl h, fun _ r m => ⟨_, .seqNil⟩⟩
  | .cons e l => fun hf hg => by
    have hf0 := hf
    rw [Exps.fine, Bool.and_eq_true] at hf
    rw [Exps.Good] at hg
    refine ⟨fun _ hh r m => ?_, fun hh r m => ?_⟩
    · rw [Exps.altHeads, Bool.and_eq_true] at hh
      obtain ⟨res, h⟩ := tot_exp e hf.1 hg.1 hh.1 r m
      cases res with
      | ok p evs m' => exact ⟨_, .altOk h⟩
      | fail m' =>
        cases l with
        | nil => exact ⟨_, .altFail h⟩
        | cons e' l =>
          obtain ⟨res2, h2⟩ := (tot_list (.cons e' l) hf.2 hg.2).1 (by simp) hh.2 r m'
          exact ⟨_, .altNext h h2⟩
    · rw [Exps.seqHeads, Bool.and_eq_true] at hh
      obtain ⟨res, h⟩ := tot_exp e hf.1 hg.1 hh.1 r m
      cases res with
      | fail m' => exact ⟨_, .seqFail h⟩
      | ok p evs m' =>
        have hm := eval_moves hn h _ _ _ rfl
        have : ∃ res2, Eval gr P inp r (.seq l) p m' res2 := by
          by_cases hp : pos = p
          · have hnull : e.null nul = true := by
              cases hb : e.null nul with
              | true => rfl
              | false => have := hm.2.1 hb; omega
            rw [hnull] at hh
            rw [← hp]
            exact (tot_list l hf.2 hg.2).2 (by simpa using hh.2) r m'
          · exact later p (by omega) (hm.2.2 hpos) (.seq l) (by rw [Exp.fine]; exact hf.2) (by rw [Exp.Good]; exact hg.2) r m'
        obtain ⟨res2, h2⟩ := this
        cases res2 with
        | fail m2 => exact ⟨_, .seqFail2 h h2⟩
        | ok p2 ev2 m2 => exact ⟨_, .seqOk h h2⟩
end
omit hn hpos later hok

mutual
theorem heads_true (nul : Nat → Bool) : ∀ e : Exp, e.heads nul (fun _ => true) = true
  | .any => rfl
  | .chr _ => rfl
  | .str _ => rfl
  | .cls _ => rfl
  | .name _ _ => rfl
  | .act _ => rfl
  | .pred _ => rfl
  | .open => rfl
  | .close => rfl
  | .err e _ => by rw [Exp.heads]; exact heads_true nul e
  | .alt l => by rw [Exp.heads]; exact (heads_true' nul l).1
  | .seq l => by rw [Exp.heads]; exact (heads_true' nul l).2
  | .peek e => by rw [Exp.heads]; exact heads_true nul e
  | .not e => by rw [Exp.heads]; exact heads_true nul e
  | .opt e => by rw [Exp.heads]; exact heads_true nul e
  | .star e => by rw [Exp.heads]; exact heads_true nul e
  | .plus e => by rw [Exp.heads]; exact heads_true nul e
theorem heads_true' (nul : Nat → Bool) : ∀ l : Exps, l.altHeads nul (fun _ => true) = true ∧ l.seqHeads nul (fun _ => true) = true
  | .nil => ⟨rfl, rfl⟩
  | .cons e l => by
    have h1 := heads_true nul e
    have h2 := heads_true' nul l
    rw [Exps.altHeads, Exps.seqHeads, h1, h2.1, h2.2]
    simp
end

/-- Without left recursion and empty repetition there is a result for every input. -/
theorem eval_total {rank : Nat → Nat} (he : Ends gr nul rank) (hg : ∀ (r : Nat) ru, gr[r]? = some ru → ru.body.Good) :
    ∀ (k pos : Nat), inp.length - pos = k → pos ≤ inp.length → ∀ e : Exp, e.fine nul gr.length = true → e.Good → Tot gr P inp e pos := by
  intro k
  induction k using Nat.strongRecOn with
  | _ k ih =>
    intro pos hk hpos
    have later : ∀ pos', pos < pos' → pos' ≤ inp.length → ∀ e : Exp, e.fine nul gr.length = true → e.Good → Tot gr P inp e pos' :=
      fun pos' h1 h2 => ih (inp.length - pos') (by omega) pos' rfl h2
    have rules : ∀ (j : Nat) (r : Nat), rank r < j → r < gr.length → ∀ v, Tot gr P inp (.name r v) pos := by
      intro j
      induction j with
      | zero => intro r h; omega
      | succ j ihj =>
        intro r hj hr v r0 m
        have hr' : gr[r]? = some gr[r] := List.getElem?_eq_getElem hr
        obtain ⟨res, h⟩ := tot_exp (ok := fun r' => decide (rank r' < rank r)) he.hnul hpos later (fun r' h1 h2 => ihj r' (by have := of_decide_eq_true h1; omega) h2)
          gr[r].body (he.hfine r _ hr') (hg r _ hr') (he.hrank r _ hr') r m
        cases res with
        | fail m' => exact ⟨_, .nameFail hr' h⟩
        | ok p evs m' => exact ⟨_, .nameOk hr' h⟩
    intro e hf hgd
    exact tot_exp (ok := fun _ => true) he.hnul hpos later (fun r _ hr v => rules (rank r + 1) r (by omega) hr v) e hf hgd (heads_true nul e)

end
end Potion.Greg
