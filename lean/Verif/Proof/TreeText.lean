import Verif.Model.TreeText
import Verif.Proof.Show
/-! Proofs for C80. -/
namespace Potion.Show
open Potion Potion.Bytes Potion.Spec Potion.Peg

/-- The buffer holds the text, and has its first size exactly if the text fits into that. -/
def Fits (b : Buf) (l : List Byte) : Prop := Holds b l ∧ (b.mem.length = 16 ↔ l.length + 1 ≤ 16)

theorem ensure_size {b : Buf} {l : List Byte} (h : Fits b l) (junk : Nat → Byte) (n : Nat) (hn : l.length + n < 2^31) :
    (ensure b junk n).mem.length = 16 ↔ l.length + n + 1 ≤ 16 := by
  obtain ⟨⟨h1, h2, _, _⟩, h5⟩ := h
  unfold ensure
  rw [show (b.len + n + 1) % 2^32 = b.len + n + 1 by omega]
  by_cases hc : b.len + n + 1 > b.mem.length
  · rw [if_pos hc]
    have g := grown_bound (b.len + n)
    have e : bytesAlign (((b.len + n) % 2^32 / 8 * 9) % 2^32 + 1) % 2^32 = bytesAlign ((b.len + n) / 8 * 9 + 1) := by
      rw [show (b.len + n) % 2^32 = b.len + n by omega, show ((b.len + n) / 8 * 9) % 2^32 = (b.len + n) / 8 * 9 by omega]
      omega
    simp only [e, realloc_length]
    have : 16 < bytesAlign ((b.len + n) / 8 * 9 + 1) ∨ b.len + n < 16 := by
      by_cases h : b.len + n < 16
      · exact .inr h
      · left; unfold bytesAlign align; omega
    omega
  · rw [if_neg hc]; omega

theorem writeAt_length {m m' : List Byte} {o : Nat} {s : List Byte} (h : writeAt m o s = some m') : m'.length = m.length := by
  unfold writeAt at h
  split at h
  · simp only [Option.some.injEq] at h; subst h; simp; omega
  · cases h

theorem printf_size {b b' : Buf} {junk s} (h : printf b junk s = some b') : b'.mem.length = (ensure b junk s.length).mem.length := by
  unfold printf at h
  dsimp only at h
  split at h
  · cases h
  · rename_i m hm
    simp only [Option.some.injEq] at h; subst h
    exact writeAt_length hm
theorem append_size {b b' : Buf} {junk s} (h : append b junk s = some b') : b'.mem.length = (ensure b junk s.length).mem.length := by
  unfold append at h
  dsimp only at h
  split at h
  · cases h
  · rename_i m hm
    split at h
    · cases h
    · rename_i m' hm'
      simp only [Option.some.injEq] at h; subst h
      exact (writeAt_length hm').trans (writeAt_length hm)

theorem lit_fits {b : Buf} {l : List Byte} (junk : Nat → Byte) (s : String) (h : Fits b l) (hn : l.length + (chars s).length < 2^31) :
    ∃ b', lit junk (some b) s = some b' ∧ Fits b' (l ++ chars s) := by
  obtain ⟨b', h1, h2⟩ := lit_ok junk s h.1 hn
  refine ⟨b', h1, h2, ?_⟩
  rw [printf_size h1, ensure_size h junk _ hn, List.length_append]
theorem obj_fits {b : Buf} {l s : List Byte} (junk : Nat → Byte) (h : Fits b l) (hn : l.length + s.length < 2^31) :
    ∃ b', objOut junk (some b) (some s) = some b' ∧ Fits b' (l ++ s) := by
  obtain ⟨b', h1, h2⟩ := obj_ok junk h.1 hn
  refine ⟨b', h1, h2, ?_⟩
  rw [append_size h1, ensure_size h junk _ hn, List.length_append]

theorem name_fits (junk : Nat → Byte) (k : Kind) : ∃ b, byteStr2 junk (astName k) = some b ∧ b.mem.length = 16 ∧ Fits b (astName k) := by
  have hk : (astName k).length ≤ 6 := by cases k <;> decide
  obtain ⟨b, h1, h2⟩ := byteStr2_spec junk (astName k) (by omega)
  have h3 : b.mem.length = 16 := by
    unfold byteStr2 at h1
    dsimp only at h1
    split at h1
    · cases h1
    · rename_i m hm
      split at h1
      · cases h1
      · rename_i m' hm'
        simp only [Option.some.injEq] at h1; subst h1
        dsimp only
        rw [writeAt_length hm', writeAt_length hm]
        unfold bytesNew bytesAlign align
        simp only [block_length]
        omega
  exact ⟨b, h1, h3, h2, by rw [h3]; omega⟩

/-- Cutting behind `l`. -/
theorem cut_ok {b : Buf} {l r : List Byte} (h : Holds b (l ++ (0x20#8 :: r))) :
    ∃ b', cutAt b (l.length + 1) = some b' ∧ Holds b' l := by
  obtain ⟨h1, h2, h3, h4⟩ := h
  simp only [List.length_append, List.length_cons] at h1
  have e : b.mem[l.length + 1 - 1]? = some 0x20#8 := by
    have := congrArg (fun x => x[l.length]?) h3
    simp only [List.getElem?_append_right (Nat.le_refl _), Nat.sub_self, List.getElem?_cons_zero] at this
    rw [List.getElem?_take_of_lt (by omega)] at this
    simpa using this
  obtain ⟨m, a1, a2, a3, _⟩ := writeAt_spec b.mem l.length [0#8] (by simp; omega)
  unfold cutAt
  rw [if_pos e]
  simp only [Nat.add_sub_cancel, a1, Option.map_some]
  have e3 : b.mem.take l.length = l := by
    have := congrArg (List.take l.length) h3
    rw [List.take_take, Nat.min_eq_left (by omega), List.take_left'] at this
    · exact this
    · rfl
  refine ⟨_, rfl, rfl, ?_, ?_, ?_⟩
  · dsimp only; omega
  · dsimp only
    have := congrArg (List.take l.length) a3
    rw [List.take_take, e3, Nat.min_eq_left (by simp), List.take_left'] at this
    · exact this
    · rfl
  · dsimp only
    have := congrArg (fun x => x[l.length]?) a3
    rw [e3] at this
    simp only [List.length_singleton] at this
    rw [List.getElem?_take_of_lt (by omega)] at this
    simpa using this

/-- What an operand adds. -/
def quoted (x : Src) (t : List Byte) : List Byte := if x.isStr then chars "\"" ++ t ++ chars "\"" else t

theorem op_eq (junk : Nat → Byte) (low : Buf → Int) (siz n i : Nat) (x : Src) (t : List Byte) {l : List Byte} (st : SrcSt) (h : Fits st.out l)
    (hn : l.length + t.length + 8 < 2^31) :
    ∃ b2 b3, Fits b2 (l ++ chars " " ++ if i = 0 ∧ n > 1 then chars "(" else []) ∧
      Fits b3 ((l ++ chars " " ++ if i = 0 ∧ n > 1 then chars "(" else []) ++ quoted x t ++ broken st.line x) ∧
      operand_ junk low siz n i x (some t) st =
        (let cut := if i = 0 ∧ n > 1 then st.cut else if i > 0 then (if x.isNil then (if st.cut = 0 then strLen low siz b2 else st.cut) else 0) else st.cut
         if i = n - 1 ∧ n > 1 then closing junk b3 cut (later st.line x) else some ⟨b3, cut, later st.line x⟩) := by
  have c1 : (chars " ").length = 1 := rfl
  have c2 : (chars "(").length = 1 := rfl
  have c3 : (chars "\"").length = 1 := rfl
  have c4 : (chars "\n").length = 1 := rfl
  obtain ⟨b1, e1, f1⟩ := lit_fits junk " " h (by omega)
  have f2 : ∃ b2, (if i = 0 ∧ n > 1 then lit junk (some b1) "(" else some b1) = some b2 ∧ Fits b2 (l ++ chars " " ++ if i = 0 ∧ n > 1 then chars "(" else []) := by
    by_cases hc : i = 0 ∧ n > 1
    · rw [if_pos hc, if_pos hc]; exact lit_fits junk "(" f1 (by rw [List.length_append]; omega)
    · rw [if_neg hc, if_neg hc]; exact ⟨b1, rfl, by simpa using f1⟩
  obtain ⟨b2, e2, f2⟩ := f2
  have hp : (l ++ chars " " ++ if i = 0 ∧ n > 1 then chars "(" else []).length ≤ l.length + 2 := by
    split <;> simp only [List.length_append, List.length_nil] <;> omega
  generalize (l ++ chars " " ++ if i = 0 ∧ n > 1 then chars "(" else []) = p at *
  have f3 : ∃ b3, (if x.isStr then lit junk (objOut junk (lit junk (some b2) "\"") (some t)) "\"" else objOut junk (some b2) (some t)) = some b3 ∧
      Fits b3 (p ++ quoted x t) := by
    unfold quoted
    by_cases hc : x.isStr = true
    · rw [if_pos hc, if_pos hc]
      obtain ⟨b, a1, a2⟩ := lit_fits junk "\"" f2 (by omega)
      obtain ⟨b', a3, a4⟩ := obj_fits (s := t) junk a2 (by rw [List.length_append]; omega)
      obtain ⟨b'', a5, a6⟩ := lit_fits junk "\"" a4 (by simp only [List.length_append]; omega)
      rw [a1, a3, a5]
      exact ⟨b'', rfl, by simpa using a6⟩
    · rw [if_neg hc, if_neg hc]; exact obj_fits junk f2 (by omega)
  have hq : (quoted x t).length ≤ t.length + 2 := by
    unfold quoted
    split
    · simp only [List.length_append]; omega
    · omega
  obtain ⟨b3, e3, f3⟩ := f3
  have f4 : ∃ b4, (if laterLine x st.line then lit junk (some b3) "\n" else some b3) = some b4 ∧
      Fits b4 (p ++ quoted x t ++ broken st.line x) ∧
      (if laterLine x st.line then x.line.getD st.line else st.line) = later st.line x := by
    unfold broken later laterLine
    cases x.line with
    | none => exact ⟨b3, rfl, by simpa using f3, rfl⟩
    | some m =>
      simp only [decide_eq_true_eq, Option.getD_some]
      by_cases hm : m > st.line
      · rw [if_pos hm, if_pos hm, if_pos hm]
        obtain ⟨b, a1, a2⟩ := lit_fits junk "\n" f3 (by rw [List.length_append]; omega)
        exact ⟨b, a1, a2, by omega⟩
      · rw [if_neg hm, if_neg hm, if_neg hm]
        exact ⟨b3, rfl, by simpa using f3, by omega⟩
  obtain ⟨b4, e4, f4, e5⟩ := f4
  refine ⟨b2, b4, f2, f4, ?_⟩
  unfold operand_
  simp only [e1, Option.bind_eq_bind, Option.bind_some, e2, e3, e4, e5]

/-- Nothing is cut. -/
theorem closing_whole {junk : Nat → Byte} {b : Buf} {l : List Byte} {cut : Int} (line : Nat) (h : Holds b l) (hc : cut ≤ 0 ∨ (l.length : Int) ≤ cut)
    (hn : l.length + 1 < 2^31) : ∃ st, closing junk b cut line = some st ∧ Holds st.out (l ++ chars ")") := by
  obtain ⟨b', h1, h2⟩ := lit_ok junk ")" h (by simpa [chars] using hn)
  refine ⟨⟨b', cut, line⟩, ?_, h2⟩
  unfold closing
  rw [if_neg (by rw [h.1]; omega)]
  simp only [Option.bind_eq_bind, Option.bind_some, h1]
/-- What comes after `l` is cut. -/
theorem closing_cut {junk : Nat → Byte} {b : Buf} {l r : List Byte} (line : Nat) (h : Holds b (l ++ (0x20#8 :: r))) (hr : r ≠ [])
    (hn : l.length + 1 < 2^31) : ∃ st, closing junk b ((l.length : Int) + 1) line = some st ∧ Holds st.out (l ++ chars ")") := by
  obtain ⟨b1, h3, h4⟩ := cut_ok h
  obtain ⟨b', h1, h2⟩ := lit_ok junk ")" h4 (by simpa [chars] using hn)
  refine ⟨⟨b', (l.length : Int) + 1, line⟩, ?_, h2⟩
  have e := h.1
  have : 0 < r.length := List.length_pos_iff.2 hr
  simp only [List.length_append, List.length_cons] at e
  unfold closing
  rw [if_pos ⟨by omega, by omega⟩, show ((l.length : Int) + 1).toNat = l.length + 1 by omega]
  simp only [Option.bind_eq_bind, Option.bind_some, h3, h1]

theorem strLen_fits {low : Buf → Int} {b : Buf} {l : List Byte} (h : Fits b (l ++ chars " ")) :
    strLen low 16 b = if short l then (l.length : Int) + 1 else low b := by
  have h1 := h.2
  have h2 := h.1.1
  rw [List.length_append, show (chars " ").length = 1 from rfl] at h1 h2
  unfold strLen short
  by_cases hc : l.length ≤ 14
  · rw [if_pos (h1.2 (by omega)), if_pos (by simpa using hc), h2]; omega
  · rw [if_neg (fun e => hc (by have := h1.1 e; omega)), if_neg (by simpa using hc)]

theorem closes {k : Kind} (h : ¬ astSize k = 1) : astSize k = 2 ∨ astSize k = 3 := by cases k <;> first | exact absurd rfl h | exact .inl rfl | exact .inr rfl
theorem size_operands (k : Kind) : astSize k = operands k := by cases k <;> rfl
theorem name_kindName (k : Kind) : astName k = chars (kindName k) := by cases k <;> rfl

theorem nil_text {b : Src} (h : b.isNil = true) : b = .nil := by cases b <;> simp_all [Src.isNil]

/-- What the operand adds to the text. -/
def adds (line : Nat) (x : Src) : List Byte := chars " " ++ (if x.isStr then chars "\"" ++ x.text ++ chars "\"" else x.text) ++ broken line x

theorem adds_nil (line : Nat) : adds line .nil = 0x20#8 :: chars "nil" := by simp [adds, Src.isStr, Src.text, broken, Src.line, chars]
theorem adds_length (line : Nat) (x : Src) : x.text.length + 1 ≤ (adds line x).length := by
  unfold adds
  split <;> simp only [List.length_append] <;> simp [chars] <;> omega

/-- An operand after the first and before the last. -/
theorem middle_ok (junk : Nat → Byte) (low : Buf → Int) (n : Nat) (x : Src) {l : List Byte} (st : SrcSt) (h : Fits st.out l) (hs : st.cut = 0) (hn : n > 2)
    (hl : l.length + x.text.length + 8 < 2^31) :
    ∃ st', operand_ junk low 16 n 1 x (some x.text) st = some st' ∧ Fits st'.out (l ++ adds st.line x) ∧ st'.line = later st.line x ∧
      (x.isNil = false → st'.cut = 0) ∧ (x.isNil = true → if short l then st'.cut = (l.length : Int) + 1 else ∃ b, st'.cut = low b) := by
  obtain ⟨b2, b3, f2, f3, e⟩ := op_eq junk low 16 n 1 x x.text st h hl
  rw [e]
  simp only [Nat.one_ne_zero, false_and, if_false, List.append_nil, gt_iff_lt, Nat.zero_lt_one, if_true] at f2 f3 ⊢
  rw [if_neg (by omega)]
  refine ⟨_, rfl, by simpa [adds, quoted] using f3, rfl, fun hx => ?_, fun hx => ?_⟩
  · simp only [hx]; rfl
  · simp only [hx, if_true, hs, strLen_fits f2]
    split
    · rfl
    · exact ⟨b2, rfl⟩

/-- The last operand. -/
theorem last_ok (junk : Nat → Byte) (low : Buf → Int) (lim : Nat) (n i : Nat) (x : Src) {l : List Byte} (st : SrcSt) (h : Fits st.out l)
    (hi : i > 0) (hn : i = n - 1) (hlim : lim ≤ 2^31) (far : ∀ b, low b ≤ 0 ∨ (lim : Int) ≤ low b) (hl : l.length + x.text.length + 8 < lim) :
    (x.isNil = false → ∃ st', operand_ junk low 16 n i x (some x.text) st = some st' ∧ Holds st'.out (l ++ adds st.line x ++ chars ")")) ∧
    (x.isNil = true → st.cut = 0 → ∃ st', operand_ junk low 16 n i x (some x.text) st = some st' ∧
      Holds st'.out ((if short l then l else l ++ adds st.line x) ++ chars ")")) ∧
    (x.isNil = true → st.cut ≠ 0 → (st.cut ≤ 0 ∨ (lim : Int) ≤ st.cut) → ∃ st', operand_ junk low 16 n i x (some x.text) st = some st' ∧
      Holds st'.out (l ++ adds st.line x ++ chars ")")) ∧
    (x.isNil = true → ∀ m r, l = m ++ (0x20#8 :: r) → st.cut = (m.length : Int) + 1 → ∃ st', operand_ junk low 16 n i x (some x.text) st = some st' ∧
      Holds st'.out (m ++ chars ")")) := by
  obtain ⟨b2, b3, f2, f3, e⟩ := op_eq junk low 16 n i x x.text st h (by omega)
  have hi0 : ¬ (i = 0 ∧ n > 1) := by omega
  rw [if_neg hi0, List.append_nil] at f2 f3
  have f3' : Holds b3 (l ++ adds st.line x) := by simpa [adds, quoted] using f3.1
  have hb : (l ++ adds st.line x).length ≤ l.length + x.text.length + 4 := by
    unfold adds
    rw [List.length_append, List.length_append, List.length_append]
    have : (chars "\"").length = 1 := rfl
    have : (chars " ").length = 1 := rfl
    have h1 : (if x.isStr then chars "\"" ++ x.text ++ chars "\"" else x.text).length ≤ x.text.length + 2 := by
      split
      · simp only [List.length_append]; omega
      · omega
    have h2 : (broken st.line x).length ≤ 1 := by
      unfold broken
      split
      · split <;> simp [chars]
      · simp
    omega
  have e' : operand_ junk low 16 n i x (some x.text) st =
      closing junk b3 (if x.isNil then (if st.cut = 0 then strLen low 16 b2 else st.cut) else 0) (later st.line x) := by
    rw [e]
    simp only [if_neg hi0, if_pos hi, if_pos (show i = n - 1 ∧ n > 1 by omega)]
  rw [e']
  refine ⟨fun hx => ?_, fun hx hc => ?_, fun hx hc hf => ?_, fun hx m r hm hc => ?_⟩
  · rw [hx]
    exact closing_whole _ f3' (.inl (by simp)) (by omega)
  · rw [hx, if_pos rfl, if_pos hc, strLen_fits f2]
    obtain rfl := nil_text hx
    by_cases hs : short l = true
    · rw [if_pos hs, if_pos hs]
      rw [adds_nil] at f3'
      exact closing_cut _ f3' (by simp [chars]) (by omega)
    · rw [if_neg hs, if_neg hs]
      exact closing_whole _ f3' (by have := far b2; omega) (by omega)
  · rw [hx, if_pos rfl, if_neg hc]
    exact closing_whole _ f3' (by omega) (by omega)
  · rw [hx, if_pos rfl, if_neg (by omega), hc]
    subst hm
    simp only [List.append_assoc, List.cons_append, List.length_append, List.length_cons] at f3' hl
    exact closing_cut _ f3' (by unfold adds; simp [chars]) (by omega)

theorem listed_bound (l : List (List Byte)) (s : List Byte) (h : s ∈ l) : s.length ≤ (listed l).length := by
  induction l with
  | nil => cases h
  | cons a r ih =>
    cases r with
    | nil => simp only [List.mem_singleton] at h; subst h; exact Nat.le_refl _
    | cons b r =>
      rw [listed]
      · simp only [List.length_append]
        rcases List.mem_cons.1 h with rfl | h
        · omega
        · have := ih h; omega
      · simp

/-- The text of a node, in the words of the proof. -/
theorem node_text (k : Kind) (n : Nat) (a b c : Src) : (Src.node k n a b c).text =
    (let x := chars (kindName k) ++ chars " (" ++ quoted a a.text ++ broken n a
     let qb := adds (later n a) b
     let qc := adds (later (later n a) b) c
     if operands k = 1 then chars (kindName k) ++ chars " " ++ quoted a a.text ++ broken n a
     else if operands k = 2 then (if b.isNil && short x then x else x ++ qb) ++ chars ")"
     else if b.isNil && c.isNil then (if short x then x else x ++ qb ++ qc) ++ chars ")"
     else (if c.isNil && short (x ++ qb) then x ++ qb else x ++ qb ++ qc) ++ chars ")") := by
  rw [Src.text]
  simp only [adds, quoted, List.append_assoc]

theorem node_ok (junk : Nat → Byte) (low : Buf → Int) (lim : Nat) (hlim : lim ≤ 2^31) (far : ∀ b, low b ≤ 0 ∨ (lim : Int) ≤ low b)
    (k : Kind) (n : Nat) (a b c : Src) (ha : a.text.length + 24 < lim → srcString junk low a = some a.text)
    (hb : b.text.length + 24 < lim → srcString junk low b = some b.text) (hc : c.text.length + 24 < lim → srcString junk low c = some c.text)
    (hl : (Src.node k n a b c).text.length + 24 < lim) : srcString junk low (.node k n a b c) = some (Src.node k n a b c).text := by
  rw [node_text] at hl ⊢
  obtain ⟨b0, e0, s0, f0⟩ := name_fits junk k
  rw [name_kindName] at e0 f0
  have hk : (chars (kindName k)).length ≤ 6 := by cases k <;> decide
  have hqa : a.text.length ≤ (quoted a a.text ++ broken n a).length := by
    unfold quoted
    split <;> simp only [List.length_append] <;> omega
  unfold srcString
  simp only [name_kindName, e0, Option.bind_eq_bind, Option.bind_some, s0, size_operands]
  have e1 : (chars " (") = chars " " ++ chars "(" := rfl
  by_cases h1 : operands k = 1
  · simp only [h1, if_true] at hl ⊢
    simp only [List.append_assoc, List.length_append] at hl hqa
    rw [ha (by omega)]
    obtain ⟨b2, b3, f2, f3, e⟩ := op_eq junk low 16 1 0 a a.text ⟨b0, 0, n⟩ f0 (by omega)
    rw [e]
    simp only [gt_iff_lt, Nat.lt_irrefl, and_false, if_false, List.append_nil, Option.bind_some, show ¬ 2 < 1 by omega]
    rw [strB_ok (l := chars (kindName k) ++ chars " " ++ quoted a a.text ++ broken n a) (by simpa using f3.1)]
  · have h2 : operands k = 2 ∨ operands k = 3 := by rw [← size_operands] at h1 ⊢; exact closes h1
    have hgt : operands k > 1 := by omega
    simp only [if_neg h1] at hl ⊢
    -- the first operand
    have hx : a.text.length + 2 ≤ (chars (kindName k) ++ chars " (" ++ quoted a a.text ++ broken n a).length := by
      simp only [List.append_assoc, List.length_append] at hqa ⊢
      have : (chars " (").length = 2 := rfl
      omega
    obtain ⟨x, ex⟩ : ∃ x, x = chars (kindName k) ++ chars " (" ++ quoted a a.text ++ broken n a := ⟨_, rfl⟩
    rw [← ex] at hl hx ⊢
    have lp : (chars ")").length = 1 := rfl
    have hxl : x.length + 1 + 24 < lim := by
      by_cases c2 : operands k = 2
      · simp only [if_pos c2] at hl
        rw [List.length_append] at hl
        split at hl <;> (try simp only [List.length_append] at hl) <;> omega
      · simp only [if_neg c2] at hl
        split at hl <;> rw [List.length_append] at hl <;> split at hl <;> (try simp only [List.length_append] at hl) <;> omega
    rw [ha (by omega)]
    obtain ⟨b2, b3, f2, f3, e⟩ := op_eq junk low 16 (operands k) 0 a a.text ⟨b0, 0, n⟩ f0 (by omega)
    simp only [true_and, if_pos hgt, if_neg (show ¬ (0 = operands k - 1 ∧ operands k > 1) by omega)] at f3 e
    have f3' : Fits b3 x := by rw [ex, e1]; simpa using f3
    rw [e]
    simp only [Option.bind_some]
    rw [if_pos hgt]
    -- the second
    have hbl : b.isNil = true ∨ b.text.length + (x.length + 2) + 24 < lim := by
      cases hbn : b.isNil with
      | true => exact .inl rfl
      | false =>
        right
        have := adds_length (later n a) b
        simp only [hbn, Bool.false_and, Bool.false_eq_true, if_false] at hl
        by_cases c2 : operands k = 2
        · simp only [if_pos c2, List.length_append] at hl; omega
        · simp only [if_neg c2, List.length_append] at hl
          split at hl <;> (try simp only [List.length_append] at hl) <;> omega
    have hbl' : b.text.length + x.length + 21 < lim := by
      rcases hbl with h | h
      · rw [nil_text h]; simp [Src.text, chars]; omega
      · omega
    have hb24 : b.text.length + 24 < lim := by
      rcases hbl with h | h
      · rw [nil_text h]; simp [Src.text, chars]; omega
      · omega
    rw [hb hb24]
    rcases h2 with h2 | h2
    · simp only [h2, if_true, show ¬ 2 > 2 by omega, if_false] at hl ⊢
      obtain ⟨g1, g2, _, _⟩ := last_ok junk low lim 2 1 b ⟨b3, 0, later n a⟩ f3' (by omega) rfl hlim far (by omega)
      cases hbn : b.isNil with
      | true =>
        obtain ⟨st', a1, a2⟩ := g2 hbn rfl
        rw [a1]; simp only [Option.bind_some]
        rw [strB_ok a2]; simp only [Bool.true_and]
      | false =>
        obtain ⟨st', a1, a2⟩ := g1 hbn
        rw [a1]; simp only [Option.bind_some]
        rw [strB_ok a2]; simp
    · simp only [h2, show ¬ (3 = 2) by omega, if_false, show 3 > 2 by omega, if_true] at hl ⊢
      obtain ⟨st1, a1, f4, l4, z1, z2⟩ := middle_ok junk low 3 b ⟨b3, 0, later n a⟩ f3' rfl (by omega) (by omega)
      rw [a1]; simp only [Option.bind_some]
      simp only at f4 l4
      have hcl : c.text.length + (x ++ adds (later n a) b).length + 12 < lim := by
        cases hcn : c.isNil with
        | true =>
          rw [nil_text hcn]
          cases hbn : b.isNil with
          | true => rw [nil_text hbn, adds_nil, List.length_append]; simp [Src.text, chars]; omega
          | false =>
            simp only [hbn, hcn, Bool.false_and, Bool.true_and, Bool.false_eq_true, if_false, List.length_append] at hl ⊢
            split at hl <;> (try simp only [List.length_append] at hl) <;> simp [Src.text, chars] <;> omega
        | false =>
          have := adds_length (later (later n a) b) c
          simp only [hcn, Bool.and_false, Bool.false_and, Bool.false_eq_true, if_false, List.length_append] at hl ⊢
          omega
      have hc24 : c.text.length + 24 < lim := by
        cases hcn : c.isNil with
        | true => rw [nil_text hcn]; simp [Src.text, chars]; omega
        | false =>
          have := adds_length (later (later n a) b) c
          simp only [hcn, Bool.and_false, Bool.false_and, Bool.false_eq_true, if_false, List.length_append] at hl
          omega
      rw [hc hc24]
      obtain ⟨g1, g2, g3, g4⟩ := last_ok junk low lim 3 2 c st1 f4 (by omega) rfl hlim far (by omega)
      rw [l4] at g1 g2 g3
      cases hcn : c.isNil with
      | false =>
        obtain ⟨st', b1, b2⟩ := g1 hcn
        rw [b1]; simp only [Option.bind_some]
        rw [strB_ok b2]; simp
      | true =>
        cases hbn : b.isNil with
        | false =>
          obtain ⟨st', b1, b2⟩ := g2 hcn (z1 hbn)
          rw [b1]; simp only [Option.bind_some]
          rw [strB_ok b2]; simp
        | true =>
          have z := z2 hbn
          simp only [Bool.and_self, if_true]
          by_cases hs : short x = true
          · rw [if_pos hs] at z ⊢
            rw [nil_text hbn, adds_nil] at g4
            obtain ⟨st', b1, b2⟩ := g4 hcn x _ rfl z
            rw [nil_text hbn] at *
            rw [b1]; simp only [Option.bind_some]
            rw [strB_ok b2]
          · rw [if_neg hs] at z ⊢
            obtain ⟨bb, z⟩ := z
            by_cases h0 : st1.cut = 0
            · obtain ⟨st', b1, b2⟩ := g2 hcn h0
              rw [b1]; simp only [Option.bind_some]
              rw [strB_ok b2, if_neg]
              intro h
              apply hs
              unfold short at h ⊢
              simp only [decide_eq_true_eq, List.length_append] at h ⊢
              omega
            · obtain ⟨st', b1, b2⟩ := g3 hcn h0 (z ▸ far bb)
              rw [b1]; simp only [Option.bind_some]
              rw [strB_ok b2]

end Potion.Show
