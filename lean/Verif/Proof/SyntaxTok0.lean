import Verif.Proof.SyntaxLex
import Mathlib.Tactic.IntervalCases
/-! Names and literals. -/
namespace Potion.Peg
open Potion Potion.Spec

/-- Bytes that would continue a name or a literal. -/
def contChar (c : Byte) : Bool :=
  mayStart nulls firsts c utfw || decide (c = 0x3F#8) || decide (c = 0x5B#8) || decide (c = 0x27#8)
/-- A fraction. -/
def NoFrac (k : List Byte) : Prop := ∀ d r, k = 0x2E#8 :: d :: r → isDigitChar d = false

/-- What may follow a token: white space `w` and then `k`. -/
structure Aft (w k : List Byte) : Prop where
  space : Space w k
  stop : WsStop k
  cont : Head (fun c => contChar c = false) (w ++ k)
  frac : NoFrac (w ++ k)

def wordByte (c : Byte) : Bool := isLetter c || isDigitChar c

theorem wordByte_utfw : ∀ c : Byte, wordByte c = true →
    between [(65, 90), (97, 122), (48, 57), (95, 95), (36, 36), (64, 64), (59, 59), (96, 96), (123, 123), (125, 125)] c = true ∧
    contChar c = true := by decide +kernel
theorem letter_utff : ∀ c : Byte, isLetter c = true →
    between [(65, 90), (97, 122), (95, 95), (36, 36), (64, 64)] c = true := by decide +kernel

theorem utfw_ok {c} (h : wordByte c = true) (k) : G utfw (c :: k) (some (.none, k)) :=
  Gives.alt1 (chr_ok (wordByte_utfw c h).1)
theorem utff_ok {c} (h : isLetter c = true) (k) : G utff (c :: k) (some (.none, k)) :=
  Gives.alt1 (chr_ok (letter_utff c h))

/-- No byte that would continue a word. -/
abbrev Break (k : List Byte) : Prop := Head (fun c => mayStart nulls firsts c utfw = false) k
theorem Break.of {k} (h : Head (fun c => contChar c = false) k) : Break k :=
  h.mono fun c hc => by simp only [contChar, Bool.or_eq_false_iff] at hc; exact hc.1.1.1
theorem Break.ne {d : Byte} {k} (hk : Break k) (hd : mayStart nulls firsts d utfw = true) (r) : k ≠ d :: r := by
  intro e; have h : mayStart nulls firsts d utfw = false := hk d r e; rw [hd] at h; simp at h

theorem utfw_fail {k} (h : Break k) : G utfw k none := fails_head (by decide) (by decide) h

theorem word_star {x k} (hx : ∀ c ∈ x, wordByte c = true) (hk : Break k) : Goes (.star utfw) (x ++ k) k := by
  induction x with
  | nil => exact ⟨_, (utfw_fail hk).starNil⟩
  | cons c x ih => exact Goes.step (utfw_ok (hx c (by simp)) _) (ih fun d hd => hx d (by simp [hd]))

/-- The first alternative of `msg` never matches. -/
theorem msg_dead (i : List Byte) :
    G (.cap (.seq utff (.seq (.star (.alt utfw (cls [(46, 46), (58, 58)]))) (.seq (plus1 utfw) (opt (tok "?")))))) i none := by
  refine Gives.capFail ?_
  obtain ⟨r, hr⟩ := grammar_total i utff (by decide)
  cases r with
  | none => exact hr.seqFail1
  | some x =>
    obtain ⟨v, j⟩ := x
    refine hr.seqFail2 ?_
    obtain ⟨s, hs⟩ := grammar_total j (.star (.alt utfw (cls [(46, 46), (58, 58)]))) (by decide)
    cases s with
    | none => exact hs.seqFail1
    | some y =>
      obtain ⟨u, l⟩ := y
      exact hs.seqFail2 ((alt_none (star_end hs)).seqFail1.seqFail1)

theorem isName_word {x} (hx : IsName x) : ∀ c ∈ x, wordByte c = true := by
  obtain ⟨⟨c, r, rfl, hc, hr⟩, _⟩ := hx
  intro d hd
  simp only [List.mem_cons] at hd
  rcases hd with rfl | hd
  · simp [wordByte, hc]
  · simpa [wordByte] using hr d hd

theorem cont_ne {d : Byte} {k} (hk : Head (fun c => contChar c = false) k) (hd : contChar d = true) (r) : k ≠ d :: r := by
  intro e; have h : contChar d = false := hk d r e; rw [hd] at h; simp at h

theorem msg_word {x k} (hx : IsWord x) (hk : Head (fun c => contChar c = false) k) : G msg (x ++ k) (some (.str x, k)) := by
  obtain ⟨c, r, rfl, hc, hr⟩ := hx
  obtain ⟨v, h⟩ := word_star (x := r) (k := k) (fun d hd => by simpa [wordByte] using hr d hd) (Break.of hk)
  have hq : G (opt (tok "?")) k (some (.none, k)) := opt_none (lit_fail fun r => cont_ne hk (by decide) r)
  exact (msg_dead _).alt2 (Gives.cap ((utff_ok hc _).seq (h.seq hq)))
theorem msg_ok {x k} (hx : IsName x) (hk : Head (fun c => contChar c = false) k) : G msg (x ++ k) (some (.str x, k)) := msg_word hx.1 hk

theorem break_quiz (k) : Break (0x3F#8 :: k) := Head.cons (by decide)
/-- A word and a question mark. -/
theorem msg_quiz {x} (hx : IsWord x) (k) : G msg (x ++ (chars "?" ++ k)) (some (.str (x ++ chars "?"), k)) := by
  obtain ⟨c, r, rfl, hc, hr⟩ := hx
  obtain ⟨v, h⟩ := word_star (x := r) (k := chars "?" ++ k) (fun d hd => by simpa [wordByte] using hr d hd) (break_quiz k)
  have hq : G (opt (tok "?")) (chars "?" ++ k) (some (.none, k)) := (lit_ok (chars "?") k).alt1
  have := Gives.cap (t := c :: r ++ chars "?") (i' := k) (by rw [List.append_assoc]; exact (utff_ok hc _).seq (h.seq hq))
  rw [List.append_assoc] at this
  exact (msg_dead _).alt2 this
/-- A path. -/
theorem path_ok {x w k} (hx : IsWord x) (h : Aft w k) : G path (chars "/" ++ (x ++ (w ++ k))) (some (.str x, k)) := by
  obtain ⟨c, r, rfl, hc, hr⟩ := hx
  obtain ⟨v, hs⟩ := word_star (x := r) (k := w ++ k) (fun d hd => by simpa [wordByte] using hr d hd) (Break.of h.cont)
  obtain ⟨u, hw⟩ := ws_ok h.space h.stop
  exact right_ok (lit_ok (chars "/") _) (left_ok (Gives.cap ((utff_ok hc _).seq hs)) hw)

theorem wordByte_start : ∀ c : Byte, wordByte c = true → mayStart nulls firsts c utfw = true := by decide +kernel

/-- A word that is not the name `x` does not match at `x`. -/
theorem word_fail {s : String} {x k} (hx : ∀ c ∈ x, wordByte c = true) (hk : Break k)
    (hs : ∀ c ∈ chars s, wordByte c = true) (hne : x ≠ chars s) : G (word s) (x ++ k) none := by
  rcases lit_total (chars s) (x ++ k) with h | ⟨r, e, h⟩
  · exact h.seqFail1
  · refine Gives.seqFail2 (i' := r) h ?_
    rcases List.append_eq_append_iff.1 e with ⟨y, h1, h2⟩ | ⟨y, h1, h2⟩
    · -- the word is longer
      cases y with
      | nil => simp at h1; exact absurd h1.symm hne
      | cons d y =>
        have := wordByte_start d (hs d (by rw [h1]; simp))
        exact absurd h2 (hk.ne this _)
    · cases y with
      | nil => simp at h1; exact absurd h1 hne
      | cons d y =>
        rw [h2]
        exact Gives.not2 (utfw_ok (hx d (by rw [h1]; simp)) _)

theorem word_ok {s : String} {k} (hk : Head (fun c => contChar c = false) k) : Goes (word s) (chars s ++ k) k :=
  ⟨_, (lit_ok (chars s) k).seq (utfw_fail (.of hk)).not1⟩

theorem keyword_fail {x k} (hx : IsName x) (hk : Break k) : G keyword (x ++ k) none := by
  have h1 := word_fail (s := "and") (isName_word hx) hk (by decide) (hx.2.1 "and" (by simp))
  have h2 := word_fail (s := "or") (isName_word hx) hk (by decide) (hx.2.1 "or" (by simp))
  have h3 := word_fail (s := "not") (isName_word hx) hk (by decide) (hx.2.1 "not" (by simp))
  have key : ∀ {s : String}, G (word s) (x ++ k) none → G (tok s) (x ++ k) none ∨
      ∃ r, G (tok s) (x ++ k) (some (.none, r)) ∧ G (.not utfw) r none := by
    intro s h
    rcases lit_total (chars s) (x ++ k) with h' | ⟨r, e, h'⟩
    · exact .inl h'
    · refine .inr ⟨r, h', ?_⟩
      obtain ⟨y, hy⟩ := grammar_total r (.not utfw) (by decide)
      cases y with
      | none => exact hy
      | some y => obtain ⟨v, j⟩ := y; exact absurd (Gives.unique h (Gives.seq (i' := r) h' hy)) (by simp)
  rcases key h1 with g1 | ⟨r, g1, g1'⟩
  · rcases key h2 with g2 | ⟨r, g2, g2'⟩
    · rcases key h3 with g3 | ⟨r, g3, g3'⟩
      · exact (g1.alt2 (g2.alt2 g3)).seqFail1
      · exact (g1.alt2 (g2.alt2 g3)).seqFail2 g3'
    · exact (g1.alt2 g2.alt1).seqFail2 g2'
  · exact g1.alt1.seqFail2 g1'

theorem extern_fail {x k} (hx : IsName x) (hk : Break k) : G (.nt .extern) (x ++ k) none := by
  have h : G (t1 "extern") (x ++ k) none := by
    refine Gives.seqFail1 (lit_fail fun r e => ?_)
    rcases List.append_eq_append_iff.1 e with ⟨y, h1, h2⟩ | ⟨y, h1, h2⟩
    · cases y with
      | nil => simp at h1; exact hx.2.2 [] (by rw [List.append_nil]; exact h1.symm)
      | cons d y =>
        have : ∀ d ∈ ascii "extern", mayStart nulls firsts d utfw = true := by decide +kernel
        exact hk.ne (this d (by rw [h1]; simp)) _ h2
    · exact hx.2.2 y h1
  exact Gives.nt ((right_fail1 h).actFail.alt2 (right_fail1 h).actFail)

/-! ### Names as values fail -/

theorem lick_fail {k} (hk : Head (fun c => contChar c = false) k) : G (.nt .lick) k none :=
  fails_head (by decide) (by decide) (hk.mono fun c hc => by
    have : ∀ c : Byte, contChar c = false → mayStart nulls firsts c (.nt .lick) = false := by decide +kernel
    exact this c hc)

theorem tuple_fail {x k} (hx : IsName x) (hk : Head (fun c => contChar c = false) k) : G (.nt .tuple) (x ++ k) none :=
  Gives.nt (Gives.actFail ((msg_ok hx hk).seqFail2 (lick_fail hk)))

theorem letter_first : ∀ c : Byte, isLetter c = true → mayStart nulls firsts c hex = false ∧ mayStart nulls firsts c number = false ∧
    mayStart nulls firsts c str1 = false ∧ mayStart nulls firsts c str2 = false ∧ mayStart nulls firsts c (.nt .lick) = false ∧
    mayStart nulls firsts c (.nt .group) = false ∧ mayStart nulls firsts c (.nt .list) = false ∧
    mayStart nulls firsts c (.nt .block) = false ∧ mayStart nulls firsts c path = false ∧ mayStart nulls firsts c quiz = false ∧
    mayStart nulls firsts c (.nt .closure) = false := by decide +kernel

theorem immed_fail {x k} (hx : IsName x) (hk : Break k) : G immed (x ++ k) none := by
  have w1 := word_fail (s := "nil") (isName_word hx) hk (by decide) (hx.2.1 "nil" (by simp))
  have w2 := word_fail (s := "true") (isName_word hx) hk (by decide) (hx.2.1 "true" (by simp))
  have w3 := word_fail (s := "false") (isName_word hx) hk (by decide) (hx.2.1 "false" (by simp))
  obtain ⟨⟨c, r, rfl, hc, hr⟩, _⟩ := hx
  obtain ⟨f1, f2, f3, f4, _⟩ := letter_first c hc
  refine alts_fail fun e he => ?_
  simp only [List.mem_cons, List.not_mem_nil, or_false] at he
  rcases he with rfl | rfl | rfl | rfl | rfl | rfl | rfl
  · exact w1.actFail
  · exact w2.actFail
  · exact w3.actFail
  · exact (fails_first _ (by decide) (by decide) f1).actFail
  · exact fails_first _ (by decide) (by decide) f2
  · exact fails_first _ (by decide) (by decide) f3
  · exact fails_first _ (by decide) (by decide) f4

theorem value_none {x k} (hx : IsName x) (hk : Break k) (h2 : G (.nt .tuple) (x ++ k) none) : G (.nt .value) (x ++ k) none := by
  have h1 := immed_fail hx hk
  obtain ⟨⟨c, r, rfl, hc, hr⟩, _⟩ := hx
  obtain ⟨_, _, _, _, f5, f6, _⟩ := letter_first c hc
  refine Gives.nt (alts_fail fun e he => ?_)
  simp only [List.mem_cons, List.not_mem_nil, or_false] at he
  rcases he with rfl | rfl | rfl | rfl
  · exact (left_fail1 h1).actFail
  · exact (left_fail1 h2).actFail
  · exact fails_first _ (by decide) (by decide) f5
  · exact fails_first _ (by decide) (by decide) f6

theorem tuple_quiz {x k} (hx : IsName x) (hk : Head (fun c => contChar c = false) k) : G (.nt .tuple) (x ++ (chars "?" ++ k)) none :=
  Gives.nt (Gives.actFail ((msg_quiz hx.1 k).seqFail2 (lick_fail hk)))

theorem not_name {x k} (hx : IsName x) (hk : Break k) : G not (x ++ k) none := by
  have hw := word_fail (s := "not") (isName_word hx) hk (by decide) (hx.2.1 "not" (by simp))
  refine Gives.seqFail1 (Gives.alt2 (lit_fail fun t e => ?_) hw)
  obtain ⟨⟨c, u, rfl, hc, _⟩, _⟩ := hx
  have := (List.cons.inj e).1
  rw [this] at hc; exact absurd hc (by decide)

/-! ### Heads of messages -/

theorem isHead_byte {h kd x} (hh : IsHead h kd x) : ∃ c r, h = c :: r ∧ (isLetter c = true ∨ c = 0x2F#8 ∨ c = 0x3F#8) := by
  cases hh with
  | name hx => obtain ⟨⟨c, r, rfl, hc, _⟩, _⟩ := hx; exact ⟨c, r, rfl, .inl hc⟩
  | nameQ hx => obtain ⟨⟨c, r, rfl, hc, _⟩, _⟩ := hx; exact ⟨c, _, rfl, .inl hc⟩
  | path => exact ⟨_, _, rfl, .inr (.inl rfl)⟩
  | query | pathq => exact ⟨_, _, rfl, .inr (.inr rfl)⟩

/-- What no head of a message is read as. -/
structure Only (i : List Byte) : Prop where
  value : G (.nt .value) i none
  extern : G (.nt .extern) i none
  not : G Potion.Peg.not i none

theorem head_only {h kd x k} (hh : IsHead h kd x) (hk : Head (fun c => contChar c = false) k) : Only (h ++ k) := by
  have f : ∀ c i, (c = 0x2F#8 ∨ c = 0x3F#8) → Only (c :: i) := by
    rintro c i (rfl | rfl) <;> exact ⟨fails_first _ (by decide) (by decide) (by decide), fails_first _ (by decide) (by decide) (by decide),
      fails_first _ (by decide) (by decide) (by decide)⟩
  cases hh with
  | name hx => exact ⟨value_none hx (.of hk) (tuple_fail hx hk), extern_fail hx (.of hk), not_name hx (.of hk)⟩
  | nameQ hx =>
    rw [List.append_assoc]
    exact ⟨value_none hx (break_quiz k) (tuple_quiz hx hk), extern_fail hx (break_quiz k), not_name hx (break_quiz k)⟩
  | path => exact f _ _ (.inl rfl)
  | query | pathq => exact f _ _ (.inr rfl)

theorem letter_path : ∀ c : Byte, isLetter c = true → c ∉ blanks ∧ c ∉ newlines ∧ c ≠ 0x23#8 := by decide +kernel

/-- Heads of messages. -/
theorem head_ok {x kd y w k} (hh : IsHead x kd y) (h : Aft w k) : G (.nt .name) (x ++ (w ++ k)) (some (ast kd (.str y), k)) := by
  obtain ⟨v, h4⟩ := ws_ok h.space h.stop
  cases hh with
  | name hx =>
    have h1 := keyword_fail hx (.of h.cont)
    have h2 := tuple_fail hx h.cont
    have h3 := msg_ok hx h.cont
    obtain ⟨⟨c, r, rfl, hc, hr⟩, _⟩ := hx
    obtain ⟨_, _, _, _, _, _, _, _, f9, f10, _⟩ := letter_first c hc
    refine Gives.nt (Gives.alt2 (fails_first _ (by decide) (by decide) f9).actFail (Gives.alt2
      (right_fail1 (fails_first _ (by decide) (by decide) f10)) (Gives.alt2 (left_fail1 h2).actFail ?_)))
    exact Gives.act (right_ok h1.not1 (left_ok h3 h4))
  | @nameQ x hx =>
    have h1 := keyword_fail hx (break_quiz (w ++ k))
    have h2 := tuple_quiz hx h.cont
    have h3 := msg_quiz hx.1 (w ++ k)
    rw [List.append_assoc]
    obtain ⟨⟨c, r, rfl, hc, hr⟩, _⟩ := hx
    obtain ⟨_, _, _, _, _, _, _, _, f9, f10, _⟩ := letter_first c hc
    refine Gives.nt (Gives.alt2 (fails_first _ (by decide) (by decide) f9).actFail (Gives.alt2
      (right_fail1 (fails_first _ (by decide) (by decide) f10)) (Gives.alt2 (left_fail1 h2).actFail ?_)))
    exact Gives.act (right_ok h1.not1 (left_ok h3 h4))
  | path hx =>
    rw [List.append_assoc]
    exact Gives.nt (Gives.alt1 (Gives.act (path_ok hx h)))
  | @query g _ hg hx =>
    have h3 := msg_word hx h.cont
    have hl : WslStop (y ++ (w ++ k)) := by
      obtain ⟨c, r, rfl, hc, _⟩ := hx; exact Head.cons (letter_path c hc)
    obtain ⟨u, h5⟩ := wsl_ok hg hl
    rw [List.append_assoc, List.append_assoc]
    exact Gives.nt (Gives.alt2 (fails_first _ (by decide) (by decide) (by decide)).actFail (Gives.alt1
      (right_ok (Gives.seq (lit_ok (chars "?") _) h5) (Gives.alt1 (Gives.act (left_ok h3 h4))))))
  | @pathq g _ hg hx =>
    obtain ⟨u, h5⟩ := wsl_ok (k := chars "/" ++ (y ++ (w ++ k))) hg (Head.cons (by decide))
    simp only [List.append_assoc]
    exact Gives.nt (Gives.alt2 (fails_first _ (by decide) (by decide) (by decide)).actFail (Gives.alt1
      (right_ok (Gives.seq (lit_ok (chars "?") _) h5) (Gives.alt2 (left_fail1 (fails_first _ (by decide) (by decide) (by decide))).actFail
      (Gives.act (path_ok hx h))))))

/-! ### Literals -/

/-- No digit. -/
abbrev NoDigit (k : List Byte) : Prop := Head (fun c => isDigitChar c = false) k
theorem NoDigit.of {k} (h : Head (fun c => contChar c = false) k) : NoDigit k := h.mono fun c hc => by
  have : ∀ c : Byte, contChar c = false → isDigitChar c = false := by decide +kernel
  exact this c hc

theorem digits_star {x k} (hx : ∀ c ∈ x, isDigitChar c = true) (hk : NoDigit k) : Goes (.star digit) (x ++ k) k := by
  induction x with
  | nil =>
    refine ⟨_, Gives.starNil (fails_head (by decide) (by decide) (hk.mono fun c hc => ?_))⟩
    have : ∀ c : Byte, isDigitChar c = false → mayStart nulls firsts c digit = false := by decide +kernel
    exact this c hc
  | cons c x ih =>
    have : ∀ c : Byte, isDigitChar c = true → between [(48, 57)] c = true := by decide +kernel
    exact Goes.step (chr_ok (this c (hx c (by simp)))) (ih fun d hd => hx d (by simp [hd]))

theorem digits_plus {x k} (hx : IsDigits x) (hk : NoDigit k) : Goes (plus1 digit) (x ++ k) k := by
  obtain ⟨hne, hx⟩ := hx
  cases x with
  | nil => contradiction
  | cons c x =>
    have : ∀ c : Byte, isDigitChar c = true → between [(48, 57)] c = true := by decide +kernel
    obtain ⟨v, h⟩ := digits_star (x := x) (k := k) (fun d hd => hx d (by simp [hd])) hk
    exact ⟨_, (chr_ok (this c (hx c (by simp)))).seq h⟩

theorem digitChar_digit {d : Nat} (h : d < 10) : isDigitChar (digitChar d) = true := by
  interval_cases d <;> decide

/-- A minus sign or none. -/
def Sign (m : List Byte) (ds : List Nat) : Prop := m = [] ∨ (m = chars "-" ∧ ds ≠ [0])

theorem decInt_ok {m ds k} (hm : Sign m ds) (hd : IsInt ds) (hk : NoDigit k) : Goes decInt (m ++ (ds.map digitChar ++ k)) k := by
  obtain ⟨hd, h0⟩ := hd
  rcases h0 with rfl | ⟨d, r, rfl, h⟩
  · rcases hm with rfl | ⟨_, h⟩
    · exact ⟨_, Gives.alt1 (lit_ok [0x30#8] k)⟩
    · exact absurd rfl h
  · obtain ⟨v, hv⟩ := digits_star (x := r.map digitChar) (k := k) (by
      intro c hc
      simp only [List.mem_map] at hc
      obtain ⟨e, he, rfl⟩ := hc
      exact digitChar_digit (hd e (by simp [he]))) hk
    have hd9 := hd d (by simp)
    have f1 : G (tok "0") (m ++ (digitChar d :: (r.map digitChar ++ k))) none := by
      rcases hm with rfl | ⟨rfl, _⟩
      · refine fails_first _ (by decide) (by decide) ?_
        interval_cases d <;> first | contradiction | decide
      · exact fails_first _ (by decide) (by decide) (by decide)
    have f2 : G (opt (tok "-")) (m ++ (digitChar d :: (r.map digitChar ++ k))) (some (.none, digitChar d :: (r.map digitChar ++ k))) := by
      rcases hm with rfl | ⟨rfl, _⟩
      · refine opt_none (fails_first _ (by decide) (by decide) ?_)
        interval_cases d <;> decide
      · exact (lit_ok (chars "-") _).alt1
    have f3 : G (cls [(49, 57)]) (digitChar d :: (r.map digitChar ++ k)) (some (.none, r.map digitChar ++ k)) := by
      refine chr_ok ?_
      interval_cases d <;> first | contradiction | decide
    exact ⟨_, f1.alt2 (f2.seq (f3.seq hv))⟩

theorem number_ok {m ds k} (hm : Sign m ds) (hd : IsInt ds)
    (hk : Head (fun c => contChar c = false) k) (hf : NoFrac k) :
    G number (m ++ (ds.map digitChar ++ k)) (some (.imm (pnNum (if m = [] then numeral 10 ds else -(numeral 10 ds : Int))), k)) := by
  obtain ⟨v, h⟩ := decInt_ok hm hd (.of hk)
  have hfr : G decFrac k none := by
    cases k with
    | nil => exact fails_nil (by decide) (by decide)
    | cons c k =>
      by_cases hc : c = 0x2E#8
      · subst hc
        refine Gives.seqFail2 (lit_ok [0x2E#8] k) (Gives.seqFail1 (fails_head (by decide) (by decide) ?_))
        intro d r e
        have := hf d r (by rw [e])
        revert this
        have : ∀ d : Byte, isDigitChar d = false → mayStart nulls firsts d digit = false := by decide +kernel
        exact this d
      · refine Gives.seqFail1 (lit_fail fun r e => ?_)
        simp [ascii] at e; exact hc e.1
  have hex : G decExp k none := Gives.seqFail1 (lit_fail fun r => cont_ne hk (by decide) r)
  rw [← List.append_assoc] at h ⊢
  have := Gives.act (g := fun | .pair t _ => (match t with | .str s => .imm (Dec.decLiteral s) | v => v) | v => v)
    ((Gives.cap h).seq (hfr.alt2 hex).not1)
  refine Gives.alt1 ?_
  have e : Dec.decLiteral (m ++ ds.map digitChar) = pnNum (if m = [] then numeral 10 ds else -(numeral 10 ds : Int)) := by
    unfold Dec.decLiteral
    rcases hm with rfl | ⟨rfl, _⟩
    · rw [List.nil_append, Dec.atoi_plain 10 (Dec.forall₂_digits hd.1), Dec.pnNum_wrap, if_pos rfl]
    · rw [show chars "-" ++ ds.map digitChar = 0x2D#8 :: ds.map digitChar from rfl, Dec.atoi_minus 10 (Dec.forall₂_digits hd.1), Dec.pnNum_wrap,
        if_neg (by decide)]
  rw [← e]
  exact this

theorem tail_head {x} (h : IsTail x) : ∃ c r, x = c :: r ∧ (c = 0x2E#8 ∨ c = 0x65#8) := by
  rcases h with ⟨y, rfl, _⟩ | ⟨s, y, _, rfl, _⟩ | ⟨f, e, rfl, ⟨y, rfl, _⟩, _⟩
  · exact ⟨_, _, rfl, .inl rfl⟩
  · exact ⟨_, _, rfl, .inr rfl⟩
  · exact ⟨_, _, rfl, .inl rfl⟩

theorem frac_ok {x k} (h : IsFraction x) (hk : NoDigit k) : Goes decFrac (x ++ k) k := by
  obtain ⟨y, rfl, hy⟩ := h
  obtain ⟨v, h⟩ := digits_plus hy hk
  rw [List.append_assoc]
  exact ⟨_, (lit_ok (chars ".") _).seq h⟩
theorem exp_ok {x k} (h : IsExponent x) (hk : NoDigit k) : Goes decExp (x ++ k) k := by
  obtain ⟨s, y, hs, rfl, hy⟩ := h
  obtain ⟨v, h⟩ := digits_plus hy hk
  simp only [List.append_assoc]
  simp only [List.mem_cons, List.not_mem_nil, or_false] at hs
  rcases hs with rfl | rfl
  · exact ⟨_, (lit_ok (chars "e") _).seq (Gives.seq (lit_ok (chars "-") _).alt1 h)⟩
  · exact ⟨_, (lit_ok (chars "e") _).seq (Gives.seq (Gives.alt2 (fails_first _ (by decide) (by decide) (by decide)) (lit_ok (chars "+") _)) h)⟩

theorem tail_ok {x k} (h : IsTail x) (hk : Head (fun c => contChar c = false) k) :
    Goes (.seq (opt decFrac) (opt decExp)) (x ++ k) k ∧ ∃ v j, G (.alt decFrac decExp) (x ++ k) (some (v, j)) := by
  have hn : G decExp k none := Gives.seqFail1 (lit_fail fun r => cont_ne hk (by decide) r)
  rcases h with h | h | ⟨f, e, rfl, hf, he⟩
  · obtain ⟨v, h⟩ := frac_ok h (.of hk)
    exact ⟨⟨_, h.alt1.seq (opt_none hn)⟩, _, _, h.alt1⟩
  · have h0 : G decFrac (x ++ k) none := by
      obtain ⟨s, y, _, rfl, _⟩ := h
      exact fails_first _ (by decide) (by decide) (by decide)
    obtain ⟨v, h⟩ := exp_ok h (.of hk)
    exact ⟨⟨_, (opt_none h0).seq h.alt1⟩, _, _, h0.alt2 h⟩
  · have h0 : NoDigit (e ++ k) := by
      obtain ⟨s, y, _, rfl, _⟩ := he
      exact Head.cons (by decide)
    obtain ⟨v, h⟩ := frac_ok hf h0
    obtain ⟨u, h'⟩ := exp_ok he (.of hk)
    rw [List.append_assoc]
    exact ⟨⟨_, h.alt1.seq h'.alt1⟩, _, _, h.alt1⟩

theorem dblNumber_ok {m ds x k} (hm : Sign m ds) (hd : IsInt ds) (hx : IsTail x) (hk : Head (fun c => contChar c = false) k) :
    G number (m ++ (ds.map digitChar ++ (x ++ k))) (some (.dbl (m ++ (ds.map digitChar ++ x)), k)) := by
  obtain ⟨⟨v, h⟩, u, j, h'⟩ := tail_ok hx hk
  have hn : NoDigit (x ++ k) := by
    obtain ⟨c, r, rfl, rfl | rfl⟩ := tail_head hx <;> exact Head.cons (by decide)
  obtain ⟨y, hi⟩ := decInt_ok hm hd hn
  refine Gives.alt2 ?_ ?_
  · rw [← List.append_assoc] at hi ⊢
    exact ((Gives.cap hi).seqFail2 h'.not2).actFail
  · have := hi.seq h
    have e : m ++ (ds.map digitChar ++ (x ++ k)) = (m ++ (ds.map digitChar ++ x)) ++ k := by simp
    rw [e] at this ⊢
    exact Gives.act (g := fun | .str s => .dbl s | v => v) (Gives.cap this)

theorem hex_fail {m ds k} (hm : Sign m ds) (hd : IsInt ds) (hk : Head (fun c => c ≠ 0x78#8) k) : G hex (m ++ (ds.map digitChar ++ k)) none := by
  refine right_fail1 (lit_fail fun r e => ?_)
  rcases hm with rfl | ⟨rfl, _⟩
  · obtain ⟨hd, h0⟩ := hd
    rcases h0 with rfl | ⟨d, s, rfl, h⟩
    · simp only [List.map_cons, List.map_nil, List.cons_append, List.nil_append] at e
      exact hk _ _ (List.cons.inj e).2 rfl
    · have := (List.cons.inj e).1
      have h10 := hd d (by simp)
      interval_cases d <;> contradiction
  · exact absurd (List.cons.inj e).1 (by decide)

end Potion.Peg
