import Verif.Proof.GregPeg
namespace Potion.Greg
open Potion.Peg (PExp NT)

/-- Where a match ends. -/
def Res.rest (inp : List Byte) : Res → Option (List Byte)
  | .ok p _ _ => some (inp.drop p)
  | .fail _ => none

def ρ0 : NT → N := fun n => normP (Peg.rule n)

section
variable {P : Nat → List Byte → Bool} {inp : List Byte}

theorem drop_cons {pos : Nat} {c : Byte} (h : inp[pos]? = some c) : inp.drop pos = c :: inp.drop (pos+1) := by
  obtain ⟨h1, h2⟩ := List.getElem?_eq_some_iff.1 h
  rw [List.drop_eq_getElem_cons h1, h2]

theorem set_rec {ρ : NT → N} {pos : Nat} {s : Bs} {c : Byte} (h : inp[pos]? = some c) (hs : s.has c = true) : Rec ρ (.set s) (inp.drop pos) (some (inp.drop (pos+1))) := by
  rw [drop_cons h]; exact .setOk hs

theorem set_recf {ρ : NT → N} {pos : Nat} {s : Bs} (h : ∀ c, inp[pos]? = some c → s.has c = false) : Rec ρ (.set s) (inp.drop pos) none := by
  refine .setFail fun c r e => h c ?_
  have : (inp.drop pos)[0]? = some c := by rw [e]; rfl
  rwa [List.getElem?_drop, Nat.add_zero] at this

theorem matchLit_ok : ∀ {s i : List Byte}, s <+: i → Peg.matchLit s i = some (i.drop s.length)
  | [], i, _ => by simp [Peg.matchLit]
  | c :: s, [], h => by have := h.length_le; simp at this
  | c :: s, b :: i, h => by
    rw [List.cons_prefix_cons] at h
    rw [Peg.matchLit, if_pos h.1, matchLit_ok h.2]; simp

theorem matchLit_fail : ∀ {s i : List Byte}, ¬ s <+: i → Peg.matchLit s i = none
  | [], i, h => absurd List.nil_prefix h
  | c :: s, [], _ => by simp [Peg.matchLit]
  | c :: s, b :: i, h => by
    rw [List.cons_prefix_cons] at h
    rw [Peg.matchLit]
    split
    · next e => exact matchLit_fail fun h' => h ⟨e, h'⟩
    · rfl

theorem eval_rec {r e pos m res} (h : Eval potionGrammar P inp r e pos m res) :
    ∀ f n, normE (normR potionGrammar f) e = some n → Rec ρ0 n (inp.drop pos) (res.rest inp) := by
  induction h with
  | anyOk h => intro f n hn; rw [normE] at hn; cases hn; exact set_rec h (by rw [Bs.has_mk])
  | anyFail h => intro f n hn; rw [normE] at hn; cases hn; exact set_recf fun c hc => by rw [h] at hc; cases hc
  | chrOk h => intro f n hn; rw [normE] at hn; cases hn; exact set_rec h (by rw [Bs.has_mk]; simp)
  | @chrFail r pos m c h =>
    intro f n hn; rw [normE] at hn; cases hn
    exact set_recf fun c' hc => by
      rw [Bs.has_mk]
      rw [hc] at h
      simpa using h
  | @strOk r pos m s h =>
    intro f n hn; rw [normE] at hn; cases hn
    have h2 := lit_ok (ρ := ρ0) s (inp.drop pos)
    rw [matchLit_ok h, List.drop_drop] at h2
    exact h2
  | @strFail r pos m s h =>
    intro f n hn; rw [normE] at hn; cases hn
    have h2 := lit_ok (ρ := ρ0) s (inp.drop pos)
    rw [matchLit_fail h] at h2
    exact h2
  | clsOk hp hc hx =>
    intro f n hn; rw [normE] at hn
    obtain ⟨bits, h1, h2⟩ := class_ok hp
    rw [h1] at hn; cases hn
    exact set_rec hc (by rw [Bs.has_mk]; exact (h2 _).2 hx)
  | clsFail hp hc =>
    intro f n hn; rw [normE] at hn
    obtain ⟨bits, h1, h2⟩ := class_ok hp
    rw [h1] at hn; cases hn
    exact set_recf fun c hx => by
      rw [Bs.has_mk]
      have := hc c hx
      cases hb : bits c.toNat with
      | false => rfl
      | true => exact absurd ((h2 c).1 hb) this
  | act => intro f n hn; rw [normE] at hn; cases hn; exact .eps
  | predOk => intro f n hn; rw [normE] at hn; cases hn
  | predFail => intro f n hn; rw [normE] at hn; cases hn
  | «open» => intro f n hn; rw [normE] at hn; cases hn; exact .eps
  | close => intro f n hn; rw [normE] at hn; cases hn; exact .eps
  | errOk h ih => intro f n hn; rw [normE] at hn; exact ih f n hn
  | errFail h ih => intro f n hn; rw [normE] at hn; exact ih f n hn
  | @altOk r e l pos m p' evs m' h ih =>
    intro f n hn
    rw [normE, normAlt] at hn
    split at hn
    · exact ih f n hn
    · split at hn
      · next a ha =>
        cases hl : normAlt (normR potionGrammar f) l with
        | none => rw [hl] at hn; cases hn
        | some b => rw [hl] at hn; cases hn; exact altN_ok (.altOk (ih f a ha))
      · cases hn
  | altFail h ih =>
    intro f n hn
    rw [normE, normAlt] at hn
    exact ih f n (by simpa [Exps.isNil] using hn)
  | @altNext r e e' l pos m m' res h h' ih ih' =>
    intro f n hn
    rw [normE, normAlt, if_neg (by simp [Exps.isNil])] at hn
    split at hn
    · next a ha =>
      cases hl : normAlt (normR potionGrammar f) (.cons e' l) with
      | none => rw [hl] at hn; cases hn
      | some b => rw [hl] at hn; cases hn; exact altN_ok (.altNext (ih f a ha) (ih' f b (by rw [normE]; exact hl)))
    · cases hn
  | seqNil => intro f n hn; rw [normE, normSeq] at hn; cases hn; exact .eps
  | @seqFail r e l pos m m' h ih =>
    intro f n hn
    rw [normE, normSeq] at hn
    split at hn
    · next a ha =>
      cases hl : normSeq (normR potionGrammar f) l with
      | none => rw [hl] at hn; cases hn
      | some b => rw [hl] at hn; cases hn; exact seqN_ok (.seqFail (ih f a ha))
    · cases hn
  | @seqOk r e l pos m p1 ev1 m1 p2 ev2 m2 h h' ih ih' =>
    intro f n hn
    rw [normE, normSeq] at hn
    split at hn
    · next a ha =>
      cases hl : normSeq (normR potionGrammar f) l with
      | none => rw [hl] at hn; cases hn
      | some b => rw [hl] at hn; cases hn; exact seqN_ok (.seqOk (ih f a ha) (ih' f b (by rw [normE]; exact hl)))
    · cases hn
  | @seqFail2 r e l pos m p1 ev1 m1 m2 h h' ih ih' =>
    intro f n hn
    rw [normE, normSeq] at hn
    split at hn
    · next a ha =>
      cases hl : normSeq (normR potionGrammar f) l with
      | none => rw [hl] at hn; cases hn
      | some b => rw [hl] at hn; cases hn; exact seqN_ok (.seqOk (ih f a ha) (ih' f b (by rw [normE]; exact hl)))
    · cases hn
  | peekOk h ih =>
    intro f n hn; rw [normE] at hn
    obtain ⟨a, ha, rfl⟩ := Option.map_eq_some_iff.1 hn
    exact .notOk (.notFail (ih f a ha))
  | peekFail h ih =>
    intro f n hn; rw [normE] at hn
    obtain ⟨a, ha, rfl⟩ := Option.map_eq_some_iff.1 hn
    exact .notFail (.notOk (ih f a ha))
  | notOk h ih =>
    intro f n hn; rw [normE] at hn
    obtain ⟨a, ha, rfl⟩ := Option.map_eq_some_iff.1 hn
    exact .notOk (ih f a ha)
  | notFail h ih =>
    intro f n hn; rw [normE] at hn
    obtain ⟨a, ha, rfl⟩ := Option.map_eq_some_iff.1 hn
    exact .notFail (ih f a ha)
  | optSome h ih =>
    intro f n hn; rw [normE] at hn
    obtain ⟨a, ha, rfl⟩ := Option.map_eq_some_iff.1 hn
    exact altN_ok (.altOk (ih f a ha))
  | optNone h ih =>
    intro f n hn; rw [normE] at hn
    obtain ⟨a, ha, rfl⟩ := Option.map_eq_some_iff.1 hn
    exact altN_ok (.altNext (ih f a ha) .eps)
  | starEnd h ih =>
    intro f n hn; rw [normE] at hn
    obtain ⟨a, ha, rfl⟩ := Option.map_eq_some_iff.1 hn
    exact .starEnd (ih f a ha)
  | starMore h h' ih ih' =>
    intro f n hn; have hn' := hn; rw [normE] at hn
    obtain ⟨a, ha, rfl⟩ := Option.map_eq_some_iff.1 hn
    exact .starMore (ih f a ha) (ih' f _ hn')
  | plusFail h ih =>
    intro f n hn; rw [normE] at hn
    obtain ⟨a, ha, rfl⟩ := Option.map_eq_some_iff.1 hn
    exact seqN_ok (.seqFail (ih f a ha))
  | plusOk h h' ih ih' =>
    intro f n hn; rw [normE] at hn
    obtain ⟨a, ha, rfl⟩ := Option.map_eq_some_iff.1 hn
    exact seqN_ok (.seqOk (ih f a ha) (ih' f _ (by rw [normE, ha]; rfl)))
  | @nameOk r r' ru v pos m p' evs m' hr h ih => intro f n hn; exact name_rec hr ih f n hn
  | @nameFail r r' ru v pos m m' hr h ih => intro f n hn; exact name_rec hr ih f n hn
where
  name_rec {r' : Nat} {ru : Rule} {v : Option Nat} {i : List Byte} {res : Option (List Byte)} (hr : potionGrammar[r']? = some ru)
      (ih : ∀ f n, normE (normR potionGrammar f) ru.body = some n → Rec ρ0 n i res) (f : Nat) (n : N)
      (hn : normE (normR potionGrammar f) (.name r' v) = some n) : Rec ρ0 n i res := by
    rw [normE] at hn
    cases hnt : ntOf r' with
    | some k =>
      have hk : n = .nt k := by
        cases f with
        | zero => rw [normR, hnt] at hn; cases hn; rfl
        | succ f => rw [normR, hnt] at hn; cases hn; rfl
      subst hk
      refine .nt (ih 10 _ ?_)
      have := agree_ok
      rw [agree, List.all_eq_true] at this
      have := this r' (List.mem_range.2 (List.getElem?_eq_some_iff.1 hr).1)
      rw [hnt, hr] at this
      exact of_decide_eq_true this
    | none =>
      cases f with
      | zero => rw [normR, hnt] at hn; cases hn
      | succ f =>
        rw [normR, hnt, hr] at hn
        exact ih f n hn

theorem potion_norm : (potionGrammar[R.potion]?).bind (fun ru => normE (normR potionGrammar 10) ru.body) = some (normP Peg.program) := by decide +kernel

theorem run_act {rule : NT → PExp} {f g a i v r} (h : Peg.run rule f (.act g a) i = some (some (v, r))) : ∃ f' v', Peg.run rule f' a i = some (some (v', r)) := by
  cases f with
  | zero => cases h
  | succ f =>
    rw [Peg.run] at h
    split at h
    · cases h
    · cases h
    · next v' i' h1 => cases h; exact ⟨f, v', h1⟩

theorem run_seq {rule : NT → PExp} {f a b i v r} (h : Peg.run rule f (.seq a b) i = some (some (v, r))) : ∃ f' v' i', Peg.run rule f' b i' = some (some (v', r)) := by
  cases f with
  | zero => cases h
  | succ f =>
    rw [Peg.run] at h
    split at h
    · cases h
    · cases h
    · split at h
      · cases h
      · cases h
      · next v' i' h1 => cases h; exact ⟨f, _, _, h1⟩

theorem program_end {f inp t rest} (h : Peg.run Peg.rule f Peg.program inp = some (some (t, rest))) : rest = [] := by
  rw [Peg.program, Peg.right, Peg.left] at h
  obtain ⟨f, v, h⟩ := run_act h
  obtain ⟨f, v, h⟩ := run_act h
  obtain ⟨f, v, i, h⟩ := run_seq h
  obtain ⟨f, v, h⟩ := run_act h
  obtain ⟨f, v, i, h⟩ := run_seq h
  have h1 := run_ok (ρ := ρ0) (fun _ => rfl) h
  rw [normP, normP] at h1
  cases h1 with
  | notOk h1 =>
    cases h1 with
    | setFail h1 =>
      cases rest with
      | nil => rfl
      | cons c r =>
        have := h1 c r rfl
        rw [Bs.has_mk] at this
        cases this

/-- Both find the same matches. -/
theorem agree_top {ru : Rule} (hr : potionGrammar[R.potion]? = some ru) {m res} (h : Eval potionGrammar P inp R.potion ru.body 0 m res) {f t}
    (ht : Peg.run Peg.rule f Peg.program inp = some t) : t.map (·.2) = res.rest inp := by
  have h1 := run_ok (ρ := ρ0) (fun _ => rfl) ht
  have h2 := potion_norm
  rw [hr] at h2
  have h3 := eval_rec h 10 _ h2
  exact h1.det h3

end
end Potion.Greg
