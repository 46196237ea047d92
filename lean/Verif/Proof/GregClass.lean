import Verif.Model.Greg
namespace Potion.Greg

theorem setRange_ok (v : Bool) : ∀ (n p : Nat) (bits : Nat → Bool), p + n ≤ 256 →
    ∃ b', setRange v n p bits = some b' ∧ ∀ k, b' k = if p ≤ k ∧ k < p + n then v else bits k := by
  intro n
  induction n with
  | zero => intro p bits _; exact ⟨bits, rfl, fun k => by rw [if_neg (by omega)]⟩
  | succ n ih =>
    intro p bits h
    have h1 : setBit v bits p = some (fun k => if k = p then v else bits k) := by rw [setBit, if_pos (by omega)]
    obtain ⟨b', h2, h3⟩ := ih (p+1) (fun k => if k = p then v else bits k) (by omega)
    refine ⟨b', by rw [setRange, h1]; exact h2, fun k => ?_⟩
    rw [h3]
    by_cases hk : p + 1 ≤ k ∧ k < p + 1 + n
    · rw [if_pos hk, if_pos (by omega)]
    · rw [if_neg hk]
      by_cases h4 : k = p
      · rw [if_pos h4, if_pos (by omega)]
      · rw [if_neg h4, if_neg (by omega)]

theorem oct_digit (a : Nat) (h : a ≤ 7) : oigit (BitVec.ofNat 8 (0x30 + a)) = true ∧ (BitVec.ofNat 8 (0x30 + a)).toNat - 48 = a ∧
    BitVec.ofNat 8 (0x30 + a) ∉ [0x61#8, 0x62#8, 0x65#8, 0x66#8, 0x6E#8, 0x72#8, 0x74#8, 0x76#8, 0x78#8] := by
  have : ∀ a : Fin 8, oigit (BitVec.ofNat 8 (0x30 + a)) = true ∧ (BitVec.ofNat 8 (0x30 + a)).toNat - 48 = a ∧
    BitVec.ofNat 8 (0x30 + a) ∉ [0x61#8, 0x62#8, 0x65#8, 0x66#8, 0x6E#8, 0x72#8, 0x74#8, 0x76#8, 0x78#8] := by decide
  exact this ⟨a, by omega⟩

theorem readChar_oct {d : Byte} {s : List Byte} (h : d ∉ [0x61#8, 0x62#8, 0x65#8, 0x66#8, 0x6E#8, 0x72#8, 0x74#8, 0x76#8, 0x78#8])
    (ho : oigit d = true) : readChar (0x5C#8 :: d :: s) = moreOct (moreOct (d.toNat - 48, s)) := by
  simp only [List.mem_cons, List.not_mem_nil, or_false, not_or] at h
  obtain ⟨h1, h2, h3, h4, h5, h6, h7, h8, h9⟩ := h
  simp [readChar, h1, h2, h3, h4, h5, h6, h7, h8, h9, ho]

theorem readChar_ok {s n c} (h : ClassChar s n c) : readChar (s ++ n) = (c.toNat, n) ∧ c.toNat ≠ 0 ∧ s ≠ [] := by
  cases h with
  | plain h1 h2 =>
    refine ⟨by simp [readChar, show c ≠ 92#8 from h2], fun e => h1 (BitVec.eq_of_toNat_eq (by simpa using e)), by simp⟩
  | control h =>
    simp only [List.mem_cons, List.not_mem_nil, or_false, Prod.mk.injEq] at h
    rcases h with h | h | h | h | h | h | h | h <;> obtain ⟨rfl, rfl⟩ := h <;> refine ⟨by simp [readChar], by decide, by simp⟩
  | quoted h =>
    simp only [List.mem_cons, List.not_mem_nil, or_false] at h
    rcases h with h | h | h | h | h <;> subst h <;> refine ⟨by simp [readChar, oigit], by decide, by simp⟩
  | octal3 h1 h2 h3 hv h0 =>
    rename_i a b c v
    obtain ⟨a1, a2, a3⟩ := oct_digit a (by omega)
    obtain ⟨b1, b2, _⟩ := oct_digit b h2
    obtain ⟨c1, c2, _⟩ := oct_digit c h3
    have hv' : (BitVec.ofNat 8 v).toNat = v := by simp; omega
    refine ⟨?_, by rw [hv']; exact h0, by simp⟩
    show readChar (0x5C#8 :: BitVec.ofNat 8 (0x30 + a) :: (BitVec.ofNat 8 (0x30 + b) :: BitVec.ofNat 8 (0x30 + c) :: n)) = _
    rw [readChar_oct a3 a1, moreOct, if_pos b1, moreOct, if_pos c1, a2, b2, c2, hv']
    congr 1; omega
  | octal2 h1 h2 hv h0 hn =>
    rename_i a b v
    obtain ⟨a1, a2, a3⟩ := oct_digit a (by omega)
    obtain ⟨b1, b2, _⟩ := oct_digit b h2
    have hv' : (BitVec.ofNat 8 v).toNat = v := by simp; omega
    refine ⟨?_, by rw [hv']; exact h0, by simp⟩
    show readChar (0x5C#8 :: BitVec.ofNat 8 (0x30 + a) :: (BitVec.ofNat 8 (0x30 + b) :: n)) = _
    rw [readChar_oct a3 a1, moreOct, if_pos b1, a2, b2]
    cases n with
    | nil => rw [moreOct, hv']; congr 1; omega
    | cons d n =>
      have := hn d n rfl
      rw [moreOct, if_neg (by simpa [oigit] using this), hv']; congr 1; omega

theorem byte_le (a b : Byte) : a ≤ b ↔ a.toNat ≤ b.toNat := BitVec.le_def

/-- The loop, reading a set after `prev` (which is not -1 except at the start and after a range). -/
theorem classLoop_ok (v : Bool) {first s p} (h : ClassSet first s p) : ∀ (f : Nat) (prev : Option Nat) (bits : Nat → Bool),
    s.length < f → (first = true → prev = none) → (prev.isSome → ∀ x r, s ≠ 0x2D :: x :: r) →
    ∃ b', classLoop v f s prev bits = some b' ∧ ∀ c : Byte, (p c → b' c.toNat = v) ∧ (¬ p c → b' c.toNat = bits c.toNat) := by
  induction h with
  | nil =>
    intro f prev bits hf _ _
    obtain ⟨f, rfl⟩ : ∃ f', f = f' + 1 := ⟨f - 1, by omega⟩
    exact ⟨bits, by simp [classLoop, readChar], fun c => ⟨fun h => h.elim, fun _ => rfl⟩⟩
  | @one fi s r c p hc hd hn hr ih =>
    intro f prev bits hf hp hne
    obtain ⟨h1, h2, h3⟩ := readChar_ok hc
    obtain ⟨f, rfl⟩ : ∃ f', f = f' + 1 := ⟨f - 1, by omega⟩
    have hsl : 0 < s.length := List.length_pos_iff.2 h3
    have hb : setBit v bits c.toNat = some (fun k => if k = c.toNat then v else bits k) := by rw [setBit, if_pos c.isLt]
    obtain ⟨b', hb1, hb2⟩ := ih f (some c.toNat) (fun k => if k = c.toNat then v else bits k) (by simp at hf; omega) (by simp)
      (fun _ x r' e => hn x r' e)
    refine ⟨b', ?_, fun x => ?_⟩
    · rw [classLoop, h1]
      simp only [h2, if_false]
      cases prev with
      | none => simp only [hb]; exact hb1
      | some q =>
        simp only
        rw [if_neg, hb]
        · exact hb1
        · intro ⟨e, e'⟩
          have hcd : c = 0x2D#8 := BitVec.eq_of_toNat_eq (by simpa using e)
          obtain ⟨rfl, h4⟩ := hd hcd
          rcases h4 with h4 | h4
          · exact absurd (hp h4) (by simp)
          · exact e' h4
    · obtain ⟨hb3, hb4⟩ := hb2 x
      refine ⟨fun h => ?_, fun h => ?_⟩
      · by_cases hx : p x
        · exact hb3 hx
        · rw [hb4 hx]
          rcases h with rfl | h
          · simp
          · exact absurd h hx
      · rw [hb4 (fun hx => h (.inr hx)), if_neg]
        intro e; exact h (.inl (BitVec.eq_of_toNat_eq e))
  | @range fi s t r a b p hs hd ht hab hr ih =>
    intro f prev bits hf hp hne
    obtain ⟨h1, h2, h3⟩ := readChar_ok hs
    obtain ⟨t1, t2, t3⟩ := readChar_ok ht
    have hsl : 0 < s.length := List.length_pos_iff.2 h3
    have htl : 0 < t.length := List.length_pos_iff.2 t3
    obtain ⟨f, rfl⟩ : ∃ f', f = f' + 2 := ⟨f - 2, by simp at hf; omega⟩
    have hb : setBit v bits a.toNat = some (fun k => if k = a.toNat then v else bits k) := by rw [setBit, if_pos a.isLt]
    obtain ⟨b1, hb1, hb2⟩ := setRange_ok v (b.toNat + 1 - a.toNat) a.toNat (fun k => if k = a.toNat then v else bits k)
      (by have := a.isLt; have := b.isLt; omega)
    obtain ⟨b', hc1, hc2⟩ := ih f none b1 (by simp at hf; omega) (by simp) (by simp)
    have hdash : readChar (0x2D#8 :: (t ++ r)) = (0x2D, t ++ r) := by simp [readChar]
    refine ⟨b', ?_, fun x => ?_⟩
    · rw [classLoop, h1]
      simp only [h2, if_false]
      have h4 : classLoop v (f+1) (0x2D#8 :: (t ++ r)) (some a.toNat) (fun k => if k = a.toNat then v else bits k) = some b' := by
        rw [classLoop, hdash]
        simp only [show ¬((0x2D:Nat) = 0) by decide, if_false]
        rw [if_pos ⟨trivial, by simp [t3]⟩, t1]
        simp only [hb1]; exact hc1
      cases prev with
      | none => simp only [hb]; exact h4
      | some q =>
        simp only
        rw [if_neg, hb]
        · exact h4
        · intro ⟨e, e'⟩
          have hcd : a = 0x2D#8 := BitVec.eq_of_toNat_eq (by simpa using e)
          exact absurd (hp (hd hcd).2) (by simp)
    · obtain ⟨hc3, hc4⟩ := hc2 x
      rw [byte_le] at hab
      refine ⟨fun h => ?_, fun h => ?_⟩
      · by_cases hx : p x
        · exact hc3 hx
        · rw [hc4 hx, hb2]
          rcases h with ⟨h, h'⟩ | h
          · rw [byte_le] at h h'; rw [if_pos (by omega)]
          · exact absurd h hx
      · have h5 : ¬(a.toNat ≤ x.toNat ∧ x.toNat ≤ b.toNat) := by rw [← byte_le, ← byte_le]; exact fun e => h (.inl e)
        rw [hc4 (fun hx => h (.inr hx)), hb2, if_neg (by omega), if_neg (by omega)]

theorem class_ok {t p} (h : IsClass t p) : ∃ bits, makeCharClass t = some bits ∧ ∀ c : Byte, bits c.toNat = true ↔ p c := by
  cases h with
  | pos h1 h2 =>
    cases t with
    | nil =>
      refine ⟨_, rfl, fun c => ?_⟩
      generalize hs : ([] : List Byte) = s at h2
      cases h2 with
      | nil => simp
      | one h3 => obtain ⟨_, _, h4⟩ := readChar_ok h3; simp [h4] at hs
      | range => simp at hs
    | cons c s =>
      have hc : c ≠ 0x5E#8 := fun e => h1 s (by rw [e]; rfl)
      obtain ⟨b', h3, h4⟩ := classLoop_ok true h2 ((c :: s).length + 1) none (fun _ => false) (by omega) (fun _ => rfl) (by simp)
      refine ⟨b', by rw [makeCharClass, if_neg hc]; exact h3, fun x => ?_⟩
      obtain ⟨h5, h6⟩ := h4 x
      by_cases hx : p x
      · simp [h5 hx, hx]
      · simp [h6 hx, hx]
  | @neg t p h2 =>
    obtain ⟨b', h3, h4⟩ := classLoop_ok false h2 (t.length + 1) none (fun _ => true) (by omega) (fun _ => rfl) (by simp)
    refine ⟨b', by rw [makeCharClass, if_pos (show (94 : Byte) = 94#8 by decide)]; exact h3, fun x => ?_⟩
    obtain ⟨h5, h6⟩ := h4 x
    by_cases hx : p x
    · simp [h5 hx, hx]
    · simp [h6 hx, hx]

end Potion.Greg
