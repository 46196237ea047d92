import Verif.Proof.Show
import Verif.Props.Syntax
/-! # C63: the text of a value, and reading it back -/
namespace Potion.Show
open Potion Potion.Bytes Potion.Spec Potion.Dec Potion.Peg

/-- C63: `string` of every value made of nil, booleans, integers, NUL-free strings, lists, tables and licks is the text
of that value, whatever memory it is put into (below 2 GiB). -/
theorem C63_text (junk : Nat → Byte) (v : Datum) (h : v.Ok) (hn : v.text.length < 2^31) : string junk v = some v.text :=
  string_ok junk v h hn

theorem digits_ok (n : Nat) : (∀ d ∈ digits n, d < 10) ∧ (digits n = [0] ∨ ∃ d r, digits n = d :: r ∧ d ≠ 0) ∧ numeral 10 (digits n) = n := by
  induction n using Nat.strongRecOn with
  | _ n ih =>
    rw [digits]
    by_cases h : n < 10
    · rw [if_pos h]
      refine ⟨by simpa using h, ?_, by simp [numeral]⟩
      by_cases h0 : n = 0
      · exact .inl (by rw [h0])
      · exact .inr ⟨n, [], rfl, h0⟩
    · rw [if_neg h]
      obtain ⟨h1, h2, h3⟩ := ih (n / 10) (by omega)
      refine ⟨?_, ?_, ?_⟩
      · intro d hd
        rcases List.mem_append.1 hd with hd | hd
        · exact h1 d hd
        · simp at hd; omega
      · rcases h2 with h2 | ⟨d, r, h2, h4⟩
        · rw [h2] at h3; simp [numeral] at h3; omega
        · exact .inr ⟨d, r ++ [n % 10], by rw [h2]; rfl, h4⟩
      · rw [numeral_append, h3]; simp [numeral]; omega

theorem reads_up {s t} (h : Reads (.ex 10) s t) : Reads (.ex 0) s t := by
  have : ∀ n, n ≤ 10 → Reads (.ex (10 - n)) s t := by
    intro n
    induction n with
    | zero => intro _; exact h
    | succ n ih =>
      intro hn
      have := ih (by omega)
      refine Reads.up (by omega) ?_
      have e : 10 - (n + 1) + 1 = 10 - n := by omega
      rw [e]; exact this
  exact this 10 (by omega)

theorem blank_nil : Blank [] := by intro c h; simp at h

theorem plainList_text {l : Data} (h : l.Plain) : (Datum.list l).text = chars "(" ++ listed l.texts ++ chars ")" := by
  rw [Datum.text, if_neg]
  cases l with
  | nil => simp [Data.isEmpty]
  | cons v l =>
    rw [Data.Plain] at h
    cases v <;> simp_all [Data.allLicks, Datum.isLick, Datum.Plain]

theorem allReads : Separator (chars ", ") := ⟨0x2C#8, chars " ", rfl, .inl rfl, .char (.inl (by decide)) .nil⟩

mutual
theorem plain_reads : ∀ v : Datum, v.Plain → ∃ t, Reads (.ex 10) v.text t ∧ Means t v
  | .nil, _ => ⟨_, by simpa [Datum.text] using Reads.operand (.atomLit .nil) .calls0, .lit rfl⟩
  | .bool b, _ => by
    cases b
    · exact ⟨_, by simpa [Datum.text] using Reads.operand (.atomLit .false) .calls0, .lit rfl⟩
    · exact ⟨_, by simpa [Datum.text] using Reads.operand (.atomLit .true) .calls0, .lit rfl⟩
  | .int i, h => by
    rw [Datum.Plain] at h
    obtain ⟨h1, h2, h3⟩ := digits_ok i.natAbs
    have hl := Reads.atomLit (Reads.int ⟨h1, h2⟩)
    rw [h3] at hl
    rw [Datum.text]
    by_cases hi : i < 0
    · rw [if_pos hi]
      have e := Reads.neg (g := []) .nil hl .calls0
      rw [List.nil_append, List.append_nil] at e
      refine ⟨_, e, ?_⟩
      have hr : InRange (i.natAbs : Int) := by have := h.1; unfold InRange at *; omega
      have hw : Datum.word (.int (i.natAbs : Int)) = some (pnNum (i.natAbs : Int)) := by rw [Datum.word, if_pos hr]
      have := Means.neg hw (by have := h.1; unfold InRange at *; omega)
      rwa [show -(i.natAbs : Int) = i by omega] at this
    · rw [if_neg hi]
      have e := Reads.operand hl .calls0
      rw [List.append_nil] at e
      refine ⟨_, e, ?_⟩
      rw [show ((i.natAbs : Nat) : Int) = i by omega]
      exact .lit (by rw [Datum.word, if_pos h.1])
  | .list l, h => by
    rw [Datum.Plain] at h
    rw [plainList_text h]
    cases l with
    | nil => exact ⟨_, by simpa [Data.texts, listed] using Reads.operand (.atomList (.list0 (g := []) .nil)) .calls0, .empty⟩
    | cons v l =>
      obtain ⟨t, ts, h1, h2, h3⟩ := plains_read v l h
      refine ⟨_, ?_, .list h2 h3⟩
      have := Reads.operand (.atomList (.list (g := []) .nil h1 (w := []) (.inl blank_nil))) .calls0
      simpa [Data.texts] using this
  | .str _, h => by simp [Datum.Plain] at h
  | .table _, h => by simp [Datum.Plain] at h
  | .lick .., h => by simp [Datum.Plain] at h
termination_by v => sizeOf v
theorem plains_read : ∀ (v : Datum) (l : Data), (Data.cons v l).Plain →
    ∃ t ts, Reads .stmts (listed (v.text :: l.texts)) (.tup (t :: ts)) ∧ Means t v ∧ MeansAll ts l
  | v, .nil, h => by
    rw [Data.Plain] at h
    obtain ⟨t, h1, h2⟩ := plain_reads v h.1
    exact ⟨t, [], by simpa [Data.texts, listed] using Reads.one (reads_up h1), h2, .nil⟩
  | v, .cons v' l, h => by
    rw [Data.Plain] at h
    obtain ⟨t, h1, h2⟩ := plain_reads v h.1
    obtain ⟨t', ts, h3, h4, h5⟩ := plains_read v' l h.2
    refine ⟨t, t' :: ts, ?_, h2, .cons h4 h5⟩
    have := Reads.more (w := []) (reads_up h1) (.inl blank_nil) allReads h3
    simpa [Data.texts, listed] using this
termination_by v l => sizeOf v + sizeOf l
end

theorem word_inj {v v' : Datum} {w : PN} (h : v.word = some w) (h' : v'.word = some w) : v = v' := by
  have odd : ∀ i : Int, isInt (pnNum i) = true := isInt_pnNum
  have inj : ∀ i j : Int, InRange i → InRange j → pnNum i = pnNum j → i = j := by
    intro i j hi hj e
    rw [← pnInt_pnNum_of_fits (i := i) (by unfold Fits63; unfold InRange at hi; omega), e,
      pnInt_pnNum_of_fits (by unfold Fits63; unfold InRange at hj; omega)]
  have num : ∀ {v : Datum} {i : Int}, v.word = some (pnNum i) → InRange i → v = .int i := by
    intro v i hv hi
    have ho := odd i
    cases v with
    | nil => simp only [Datum.word, Option.some.injEq] at hv; rw [← hv] at ho; exact absurd ho (by decide)
    | bool b => cases b <;> simp only [Datum.word, Option.some.injEq] at hv <;> rw [← hv] at ho <;> exact absurd ho (by decide)
    | int j =>
      simp only [Datum.word] at hv
      split at hv
      · rename_i hj; rw [inj j i hj hi (Option.some.inj hv)]
      · simp at hv
    | _ => simp [Datum.word] at hv
  have kind : (∃ i, w = pnNum i ∧ InRange i) ∨ (w = PN_NIL ∨ w = PN_TRUE ∨ w = PN_FALSE) := by
    cases v with
    | nil => simp only [Datum.word, Option.some.injEq] at h; exact .inr (.inl h.symm)
    | bool b =>
      cases b <;> simp only [Datum.word, Option.some.injEq] at h
      · exact .inr (.inr (.inr h.symm))
      · exact .inr (.inr (.inl h.symm))
    | int j =>
      simp only [Datum.word] at h
      split at h
      · rename_i hj; exact .inl ⟨j, (Option.some.inj h).symm, hj⟩
      · simp at h
    | _ => simp [Datum.word] at h
  rcases kind with ⟨i, rfl, hi⟩ | hw
  · rw [num h hi, num h' hi]
  · have small : ∀ {v : Datum}, v.word = some w → v = (if w = PN_NIL then .nil else .bool (w == PN_TRUE)) := by
      intro v hv
      cases v with
      | nil => simp only [Datum.word, Option.some.injEq] at hv; rw [← hv]; rfl
      | bool b => cases b <;> simp only [Datum.word, Option.some.injEq] at hv <;> rw [← hv] <;> rfl
      | int j =>
        simp only [Datum.word] at hv
        split at hv
        · have ho := odd j
          rw [Option.some.inj hv] at ho
          rcases hw with rfl | rfl | rfl <;> exact absurd ho (by decide)
        · simp at hv
      | _ => simp [Datum.word] at hv
    rw [small h, small h']

mutual
theorem means_unique {t : Tree} {v v' : Datum} (h : Means t v) (h' : Means t v') : v = v' := by
  cases h with
  | lit h1 =>
    cases h' with
    | lit h2 => exact word_inj h1 h2
  | neg h1 _ => cases h' with
    | neg h2 _ => have := word_inj h1 h2; cases this; rfl
  | empty => cases h'; rfl
  | list h1 h2 => cases h' with
    | list h3 h4 => rw [means_unique h1 h3, meansAll_unique h2 h4]
theorem meansAll_unique {ts : List Tree} {l l' : Data} (h : MeansAll ts l) (h' : MeansAll ts l') : l = l' := by
  cases h with
  | nil => cases h'; rfl
  | cons h1 h2 => cases h' with
    | cons h3 h4 => rw [means_unique h1 h3, meansAll_unique h2 h4]
end

/-- C63: the text of a value made of nil, booleans, integers (other than the smallest) and lists of these, taken as a
program, is one expression, which stands for that value and for no other. -/
theorem C63_readback_partial (v : Datum) (h : v.Plain) :
    ∃ t, (∃ f0, ∀ f, f0 ≤ f → parse f v.text = some (some (node1 .code (.tup [t])))) ∧ ∀ v', Means t v' ↔ v' = v := by
  obtain ⟨t, h1, h2⟩ := plain_reads v h
  refine ⟨t, ?_, fun v' => ⟨fun h3 => means_unique h3 h2, fun e => e ▸ h2⟩⟩
  have := C51_parse (IsProgram.stmts (g := []) .nil (.one (reads_up h1)) (w := []) (.inl blank_nil))
  simpa using this

/-- C63: different such values have different texts. -/
theorem C63_unique_partial (v v' : Datum) (h : v.Plain) (h' : v'.Plain) (e : v.text = v'.text) : v = v' := by
  obtain ⟨t, ⟨f0, h1⟩, h2⟩ := C63_readback_partial v h
  obtain ⟨t', ⟨f1, h3⟩, h4⟩ := C63_readback_partial v' h'
  have h5 := h1 _ (Nat.le_max_left f0 f1)
  rw [e, h3 _ (Nat.le_max_right f0 f1)] at h5
  have : t' = t := by
    simp only [Option.some.injEq, node1, Tree.node.injEq, Tree.tup.injEq, List.cons.injEq, and_true, true_and] at h5
    exact h5
  rw [this] at h4
  exact ((h4 v).1 ((h2 v).2 rfl))

/-- An example of the hypotheses: `(1, (), (-20, nil), true)`. -/
def sample : Datum := .list (.cons (.int 1) (.cons (.list .nil) (.cons (.list (.cons (.int (-20)) (.cons .nil .nil))) (.cons (.bool true) .nil))))
example : sample.Plain ∧ sample.Ok ∧ sample.text = chars "(1, (), (-20, nil), true)" := by
  refine ⟨?_, ?_, ?_⟩
  · simp [sample, Datum.Plain, Data.Plain, InRange]
  · simp [sample, Datum.Ok, Data.Ok, InRange]
  · simp [sample, Datum.text, Data.texts, Data.allLicks, Data.isEmpty, Datum.isLick, listed, digits, chars, digitChar]

/-- The text does not tell strings from other values, nor one string in a list from two, nor an empty table from an empty
list. -/
theorem C63_refuted_string (junk : Nat → Byte) :
    string junk (.str (chars "5")) = string junk (.int 5) ∧
    string junk (.list (.cons (.str (chars "a, b")) .nil)) = string junk (.list (.cons (.str (chars "a")) (.cons (.str (chars "b")) .nil))) ∧
    string junk (.table .nil) = string junk (.list .nil) := by
  refine ⟨?_, ?_, ?_⟩ <;>
    (rw [C63_text, C63_text] <;> simp [Datum.text, Data.texts, Pairs.texts, Data.allLicks, Data.isEmpty, Datum.isLick, listed, digits, chars, digitChar,
      Datum.Ok, Data.Ok, Pairs.Ok, InRange])

set_option maxRecDepth 20000 in
/-- The text of the smallest integer is read as `0 - n`, where the literal `n` has wrapped round to the smallest integer
itself; the subtraction makes a double of it. -/
theorem C63_refuted_smallest (junk : Nat → Byte) : string junk (.int (-2^62)) = some (chars "-4611686018427387904") ∧
    (∃ f0, ∀ f, f0 ≤ f → parse f (chars "-4611686018427387904") = some (some (node1 .code (.tup [
      operand (node2 .minus (node1 .value (.imm (pnNum 0))) (node1 .value (.imm (pnNum (-2^62))))) []])))) ∧
    vmMath3 .sub (fun k => k) (fun a b => a - b) (pnNum 0) (pnNum (-2^62)) = .dbl ((2:Int)^62) := by
  refine ⟨?_, ?_, ?_⟩
  · rw [C63_text _ _ (by simp [Datum.Ok, InRange]) (by simp [Datum.text, digits, chars])]
    simp [Datum.text, digits, chars, digitChar]
  · obtain ⟨h1, h2, h3⟩ := digits_ok (2^62)
    have hl := Reads.atomLit (Reads.int ⟨h1, h2⟩)
    rw [h3] at hl
    have e := Reads.neg (g := []) .nil hl .calls0
    have := C51_parse (IsProgram.stmts (g := []) .nil (.one (reads_up e)) (w := []) (.inl blank_nil))
    have e1 : pnNum ((2:Nat)^62 : Nat) = pnNum (-2^62) := by decide
    rw [e1] at this
    have e2 : chars "-4611686018427387904" = [] ++ ((chars "-" ++ ([] ++ (List.map digitChar (digits (2 ^ 62)) ++ []))) ++ []) := by
      simp [digits, chars, digitChar]
    rw [e2]; exact this
  · rfl

end Potion.Show
