import Verif.Proof.GregTerm
import Verif.Model.PotionGrammar
namespace Potion.Greg

/-! Deciding what is required of a grammar. -/

/-- One character of a class: the text, the character, the rest. -/
def rdChar : List Byte → Option (List Byte × Byte × List Byte)
  | [] => none
  | c :: s =>
    if c = 0 then none
    else if c ≠ 0x5C then some ([c], c, s)
    else match s with
      | [] => none
      | d :: s =>
        match [(0x61#8, 7#8), (0x62, 8), (0x65, 27), (0x66, 12), (0x6E, 10), (0x72, 13), (0x74, 9), (0x76, 11)].find? (fun p => p.1 = d) with
        | some p => some ([0x5C, d], p.2, s)
        | none =>
          if [0x27#8, 0x22, 0x5B, 0x5D, 0x5C].contains d then some ([0x5C, d], d, s)
          else if oigit d then
            match s with
            | [] => none
            | e :: s =>
              if oigit e then
                match s with
                | f :: s' =>
                  if oigit f then
                    if d.toNat ≤ 51 ∧ (d.toNat - 48) * 64 + (e.toNat - 48) * 8 + (f.toNat - 48) ≠ 0 then
                      some ([0x5C, d, e, f], BitVec.ofNat 8 ((d.toNat - 48) * 64 + (e.toNat - 48) * 8 + (f.toNat - 48)), s')
                    else none
                  else if (d.toNat - 48) * 8 + (e.toNat - 48) ≠ 0 then some ([0x5C, d, e], BitVec.ofNat 8 ((d.toNat - 48) * 8 + (e.toNat - 48)), f :: s')
                  else none
                | [] => if (d.toNat - 48) * 8 + (e.toNat - 48) ≠ 0 then some ([0x5C, d, e], BitVec.ofNat 8 ((d.toNat - 48) * 8 + (e.toNat - 48)), []) else none
              else none
          else none

theorem oigit_digit {d : Byte} (h : oigit d = true) : d.toNat - 48 ≤ 7 ∧ BitVec.ofNat 8 (0x30 + (d.toNat - 48)) = d := by
  rw [oigit, Bool.and_eq_true, decide_eq_true_eq, decide_eq_true_eq, BitVec.le_def, BitVec.le_def] at h
  have h1 : 48 ≤ d.toNat := h.1
  have h2 : d.toNat ≤ 55 := h.2
  refine ⟨by omega, ?_⟩
  rw [show 0x30 + (d.toNat - 48) = d.toNat by omega, BitVec.ofNat_toNat, BitVec.setWidth_eq]

theorem oigit_not {d : Byte} (h : oigit d = false) : ¬(0x30#8 ≤ d ∧ d ≤ 0x37#8) := by
  rintro ⟨h1, h2⟩
  rw [oigit, decide_eq_true h1, decide_eq_true h2] at h
  cases h

theorem rdChar_ok {t s r : List Byte} {c : Byte} (h : rdChar t = some (s, c, r)) : t = s ++ r ∧ ClassChar s r c := by
  cases t with
  | nil => cases h
  | cons x t =>
    rw [rdChar.eq_def] at h
    simp only at h
    split at h
    · cases h
    split at h
    · next h0 h1 => cases h; exact ⟨rfl, .plain h0 h1⟩
    next h1 =>
    have hx : x = 0x5C := by simpa using h1
    subst hx
    cases t with
    | nil => cases h
    | cons d t =>
      simp only at h
      split at h
      · next p hp =>
        cases h
        refine ⟨rfl, .control ?_⟩
        have h2 := List.mem_of_find?_eq_some hp
        have h3 := List.find?_some hp
        have h3 : p.1 = d := by simpa using h3
        rw [← h3]; exact h2
      · split at h
        · next h2 => cases h; exact ⟨rfl, .quoted (List.contains_iff_mem.1 h2)⟩
        split at h
        · next hd =>
          have hd := oigit_digit hd
          cases t with
          | nil => cases h
          | cons e t =>
            simp only at h
            split at h
            · next he =>
              have he := oigit_digit he
              cases t with
              | nil =>
                simp only at h
                split at h
                · next h3 =>
                  cases h
                  refine ⟨rfl, ?_⟩
                  have := ClassChar.octal2 (n := []) hd.1 he.1 rfl h3 (fun _ _ h => by cases h)
                  rwa [hd.2, he.2] at this
                · cases h
              | cons f t =>
                simp only at h
                split at h
                · next hf =>
                  have hf := oigit_digit hf
                  split at h
                  · next h3 =>
                    cases h
                    refine ⟨rfl, ?_⟩
                    have := ClassChar.octal3 (n := r) (show d.toNat - 48 ≤ 3 by omega) he.1 hf.1 rfl h3.2
                    rwa [hd.2, he.2, hf.2] at this
                  · cases h
                · next hf =>
                  split at h
                  · next h3 =>
                    cases h
                    refine ⟨rfl, ?_⟩
                    have := ClassChar.octal2 (n := f :: t) hd.1 he.1 rfl h3 (fun c r h => by cases h; exact oigit_not (by simpa using hf))
                    rwa [hd.2, he.2] at this
                  · cases h
            · cases h
        · cases h

def chkSet : Nat → Bool → List Byte → Bool
  | 0, _, _ => false
  | _+1, _, [] => true
  | n+1, f, x :: t => match rdChar (x :: t) with
    | none => false
    | some (s, c, r) =>
      match r with
      | 0x2D :: y :: r' => match rdChar (y :: r') with
        | none => false
        | some (_, b, r2) => decide (c ≤ b) && (c ≠ 0x2D || (s = [0x2D] && f)) && chkSet n false r2
      | r => (c ≠ 0x2D || (s = [0x2D] && (f || r.isEmpty))) && chkSet n false r

theorem chkSet_ok : ∀ {n f t}, chkSet n f t = true → ∃ p, ClassSet f t p
  | 0, _, _, h => by cases h
  | _+1, _, [], _ => ⟨_, .nil⟩
  | n+1, f, x :: t, h => by
    rw [chkSet] at h
    split at h
    · cases h
    next s c r hr =>
    have h1 := rdChar_ok hr
    rw [h1.1]
    split at h
    · next y r' =>
      split at h
      · cases h
      next s2 b r2 hr2 =>
      have h2 := rdChar_ok hr2
      rw [Bool.and_eq_true, Bool.and_eq_true, decide_eq_true_eq] at h
      obtain ⟨⟨ha, hb⟩, hc⟩ := h
      obtain ⟨p, hp⟩ := chkSet_ok hc
      have h3 := h1.2
      rw [h2.1] at h3 ⊢
      refine ⟨_, .range h3 (fun e => ?_) h2.2 ha hp⟩
      simpa [e] using hb
    · next hn =>
      rw [Bool.and_eq_true] at h
      obtain ⟨hb, hc⟩ := h
      obtain ⟨p, hp⟩ := chkSet_ok hc
      refine ⟨_, .one h1.2 (fun e => ?_) (fun x r' e => hn x r' e) hp⟩
      simpa [e] using hb

def chkClass (t : List Byte) : Bool :=
  match t with
  | [] => true
  | c :: r => if c = 0x5E then chkSet (r.length + 1) true r else chkSet (t.length + 1) true t

theorem chkClass_ok {t : List Byte} (h : chkClass t = true) : ∃ p, IsClass t p := by
  cases t with
  | nil => exact ⟨_, .pos (fun r e => by cases e) .nil⟩
  | cons c r =>
    rw [chkClass] at h
    split at h
    · next hc =>
      subst hc
      obtain ⟨p, hp⟩ := chkSet_ok h
      exact ⟨_, .neg hp⟩
    · next hn =>
      obtain ⟨p, hp⟩ := chkSet_ok h
      exact ⟨_, .pos (fun r e => hn (by cases e; rfl)) hp⟩

mutual
/-- All that is required of an expression: classes and characters, and the variables. -/
def Exp.chk (deep : Nat → Bool) (nv : Nat) : Exp → Bool
  | .chr c => decide (c.toNat < 128)
  | .cls t => chkClass t
  | .name r (some v) => decide (v < nv) && deep r
  | .err e _ => e.chk deep nv
  | .alt l => !l.isNil && l.chk deep nv
  | .seq l => l.chk deep nv
  | .peek e => e.chk deep nv
  | .not e => e.chk deep nv
  | .opt e => e.chk deep nv
  | .star e => e.chk deep nv
  | .plus e => e.chk deep nv
  | _ => true
def Exps.chk (deep : Nat → Bool) (nv : Nat) : Exps → Bool
  | .nil => true
  | .cons e l => e.chk deep nv && l.chk deep nv
end

section
variable {α : Type} {A : Nat → List Byte → (Nat → α) → α → (Nat → α) × α} {deep : Nat → Bool} {nv : Nat} {ok : Nat → Prop}
mutual
theorem chk_ok (hd : ∀ r, deep r = true → ok r) : ∀ e : Exp, e.chk deep nv = true → e.Ascii ∧ e.Good ∧ ((∀ a, a ∈ e.acts → Local A nv a) → e.Uses A ok nv)
  | .any => fun _ => by simp [Exp.Ascii, Exp.Good, Exp.Uses]
  | .chr c => fun h => by simpa [Exp.Ascii, Exp.Good, Exp.Uses, Exp.chk] using h
  | .str _ => fun _ => by simp [Exp.Ascii, Exp.Good, Exp.Uses]
  | .cls t => fun h => by
    rw [Exp.chk] at h
    simpa [Exp.Ascii, Exp.Good, Exp.Uses] using chkClass_ok h
  | .name r none => fun _ => by simp [Exp.Ascii, Exp.Good, Exp.Uses]
  | .name r (some v) => fun h => by
    rw [Exp.chk, Bool.and_eq_true, decide_eq_true_eq] at h
    refine ⟨by simp [Exp.Ascii], by simp [Exp.Good], fun _ => ?_⟩
    rw [Exp.Uses]; exact ⟨h.1, hd r h.2⟩
  | .act a => fun _ => by
    refine ⟨by simp [Exp.Ascii], by simp [Exp.Good], fun h => ?_⟩
    rw [Exp.Uses]; exact h a (by simp [Exp.acts])
  | .pred _ => fun _ => by simp [Exp.Ascii, Exp.Good, Exp.Uses]
  | .open => fun _ => by simp [Exp.Ascii, Exp.Good, Exp.Uses]
  | .close => fun _ => by simp [Exp.Ascii, Exp.Good, Exp.Uses]
  | .err e _ => fun h => by rw [Exp.Ascii, Exp.Good, Exp.Uses, Exp.acts]; exact chk_ok hd e (by rwa [Exp.chk] at h)
  | .peek e => fun h => by rw [Exp.Ascii, Exp.Good, Exp.Uses, Exp.acts]; exact chk_ok hd e (by rwa [Exp.chk] at h)
  | .not e => fun h => by rw [Exp.Ascii, Exp.Good, Exp.Uses, Exp.acts]; exact chk_ok hd e (by rwa [Exp.chk] at h)
  | .opt e => fun h => by rw [Exp.Ascii, Exp.Good, Exp.Uses, Exp.acts]; exact chk_ok hd e (by rwa [Exp.chk] at h)
  | .star e => fun h => by rw [Exp.Ascii, Exp.Good, Exp.Uses, Exp.acts]; exact chk_ok hd e (by rwa [Exp.chk] at h)
  | .plus e => fun h => by rw [Exp.Ascii, Exp.Good, Exp.Uses, Exp.acts]; exact chk_ok hd e (by rwa [Exp.chk] at h)
  | .seq l => fun h => by rw [Exp.Ascii, Exp.Good, Exp.Uses, Exp.acts]; exact chk_oks hd l (by rwa [Exp.chk] at h)
  | .alt l => fun h => by
    rw [Exp.chk, Bool.and_eq_true] at h
    rw [Exp.Ascii, Exp.Good, Exp.Uses, Exp.acts]
    have := chk_oks hd l h.2
    refine ⟨this.1, ⟨?_, this.2.1⟩, this.2.2⟩
    rintro rfl
    simp [Exps.isNil] at h
theorem chk_oks (hd : ∀ r, deep r = true → ok r) : ∀ l : Exps, l.chk deep nv = true → l.Ascii ∧ l.Good ∧ ((∀ a, a ∈ l.acts → Local A nv a) → l.Uses A ok nv)
  | .nil => fun _ => by simp [Exps.Ascii, Exps.Good, Exps.Uses]
  | .cons e l => fun h => by
    rw [Exps.chk, Bool.and_eq_true] at h
    have h1 := chk_ok hd e h.1
    have h2 := chk_oks hd l h.2
    rw [Exps.Ascii, Exps.Good, Exps.Uses, Exps.acts]
    exact ⟨⟨h1.1, h2.1⟩, ⟨h1.2.1, h2.2.1⟩, fun h => ⟨h1.2.2 fun a ha => h a (List.mem_append_left _ ha), h2.2.2 fun a ha => h a (List.mem_append_right _ ha)⟩⟩
end
end

end Potion.Greg
