import Verif.Proof.SyntaxStop
/-! The parser accepts every phrase of the specification and builds its tree. -/
namespace Potion.Peg
open Potion Potion.Spec

/-- First bytes of expressions. -/
def leadByte (c : Byte) : Bool := litByte c || isLetter c || decide (c ∈ chars "(!~-+/?")
def atomByte (c : Byte) : Bool := litByte c || isLetter c || decide (c ∈ chars "(/?")
/-- First bytes of heads of messages. -/
def headByte (c : Byte) : Bool := isLetter c || decide (c ∈ chars "/?")
def argByte (c : Byte) : Bool := litByte c || decide (c = 0x2D#8)
def Lead (s : List Byte) : Prop := ∃ c r, s = c :: r ∧ leadByte c = true

theorem leadByte_facts : ∀ c : Byte, leadByte c = true → c ∉ blanks ∧ c ∉ newlines ∧ c ≠ 0x23#8 ∧ c ≠ 0x2C#8 ∧ c ≠ 0x3D#8 := by
  decide +kernel
theorem atomByte_facts : ∀ c : Byte, atomByte c = true → leadByte c = true ∧ mayStart nulls firsts c wavy = false ∧
    mayStart nulls firsts c minus = false ∧ mayStart nulls firsts c plus = false ∧ mayStart nulls firsts c mminus = false ∧
    mayStart nulls firsts c pplus = false := by decide +kernel

theorem Lead.wsl {s} (h : Lead s) (i) : WslStop (s ++ i) := by
  obtain ⟨c, r, rfl, h⟩ := h
  have := leadByte_facts c h
  exact Head.cons ⟨this.1, this.2.1, this.2.2.1⟩
theorem Lead.sep {s} (h : Lead s) (i) : SepStop (s ++ i) := by
  obtain ⟨c, r, rfl, h⟩ := h
  have := leadByte_facts c h
  exact Head.cons ⟨this.1, this.2.1, this.2.2.1, this.2.2.2.1⟩
theorem Lead.append {s} (h : Lead s) (i) : Lead (s ++ i) := by
  obtain ⟨c, r, rfl, h⟩ := h
  exact ⟨c, r ++ i, rfl, h⟩

/-- What may follow statements. -/
structure Close (w k : List Byte) : Prop where
  aft : Aft w k
  ends : k = [] ∨ ∃ r, k = 0x29#8 :: r ∨ k = 0x2E#8 :: r

theorem Close.stop {w k} (h : Close w k) : Stop 0 w k := by
  have s : Starts 0 k := by
    rcases h.ends with h | ⟨r, h | h⟩
    · exact .inl h
    · exact .inr (.inl ⟨[0x29#8], by decide, r, h⟩)
    · exact .inr (.inl ⟨[0x2E#8], by decide, r, h⟩)
  exact ⟨h.aft, s, fun _ => sets_fail0 s⟩
theorem Close.first {w k} (h : Close w k) {e} (hs : starOk nulls e = true) (hn : nullable nulls e = false)
    (h1 : mayStart nulls firsts 0x29#8 e = false) (h2 : mayStart nulls firsts 0x2E#8 e = false) : G e k none := by
  rcases h.ends with rfl | ⟨r, rfl | rfl⟩
  · exact fails_nil hs hn
  · exact fails_first _ hs hn h1
  · exact fails_first _ hs hn h2
theorem Close.sepStop {w k} (h : Close w k) : SepStop k := by
  rcases h.ends with rfl | ⟨r, rfl | rfl⟩
  · exact Head.nil
  · exact Head.cons (by decide)
  · exact Head.cons (by decide)

/-- What the parser does with a phrase. -/
def M : Cat → List Byte → Tree → Prop
  | .lit, s, t => (∃ c r, s = c :: r ∧ litByte c = true) ∧ (∀ w k, Aft w k → G not (s ++ (w ++ k)) none) ∧
      ∀ w k, Aft w k → G (.nt .value) (s ++ (w ++ k)) (some (t, k))
  | .list, s, t => (∃ r, s = 0x28#8 :: r) ∧ ∀ w k, Space w k → WsStop k → G (.nt .list) (s ++ (w ++ k)) (some (t, k))
  | .block, s, t => (∃ r, s = 0x3A#8 :: r) ∧ ∀ w k, Aft w k → G (.nt .block) (s ++ (w ++ k)) (some (t, k))
  | .blockOpt, s, t => ∀ w k, NStop w k → ∃ w1 k1, s ++ (w ++ k) = w1 ++ k1 ∧ Aft w1 k1 ∧ G (.nt .value) k1 none ∧
      G (.nt .list) k1 none ∧ G (orNil (.alt (.nt .block) (.nt .closure))) k1 (some (t, k))
  | .arg, s, t => (∃ c r, s = c :: r ∧ argByte c = true) ∧ ∀ w k, Aft w k → G (.nt .value) (s ++ (w ++ k)) (some (t, k))
  | .call, s, t => (∃ c r, s = c :: r ∧ headByte c = true) ∧ (∀ w k, NStop w k → Only (s ++ (w ++ k))) ∧
      ∀ w k, NStop w k → G (.nt .call) (s ++ (w ++ k)) (some (t, k))
  | .calls, s, t => ∃ l, t = .tup l ∧ ∀ w k, Stop 10 w k → ∃ w1 k1, s ++ (w ++ k) = w1 ++ k1 ∧ NStop w1 k1 ∧
      G pplus k1 none ∧ G mminus k1 none ∧ G (.star (.nt .call)) k1 (some (.tup l, k))
  | .atom, s, t => (∃ c r, s = c :: r ∧ atomByte c = true) ∧ (∀ w k, NStop w k → G not (s ++ (w ++ k)) none) ∧
      ∀ w k, NStop w k → G (.nt .atom) (s ++ (w ++ k)) (some (t, k))
  | .ex ℓ, s, t => Lead s ∧ (∀ w k, Stop ℓ w k → G (.nt (ntOf ℓ)) (s ++ (w ++ k)) (some (t, k))) ∧
      (ℓ < 10 → ℓ ≠ 1 → ∀ w k l k', Stop (ℓ + 1) w k → G (.star (opAlts ℓ)) k (some (.tup l, k')) →
        ∃ x j l', G (.nt (ntOf (ℓ + 1))) (s ++ (w ++ k)) (some (x, j)) ∧ G (.star (opAlts ℓ)) j (some (.tup l', k')) ∧
          foldOps x l' = foldOps t l)
  | .stmts, s, t => Lead s ∧ ∃ a l, t = .tup (a :: l) ∧ ∀ w k, Close w k → ∃ r r', G (.nt .stmt) (s ++ (w ++ k)) (some (a, r)) ∧
      G (.star (right sep (.nt .stmt))) r (some (.tup l, r')) ∧ Goes (opt sep) r' k

/-! ### Tokens -/

theorem t1_ok {s : String} {w k} (hw : Space w k) (hk : WsStop k) : Goes (t1 s) (chars s ++ (w ++ k)) k := by
  obtain ⟨v, h⟩ := ws_ok hw hk
  exact ⟨_, (lit_ok (chars s) (w ++ k)).seq h⟩
theorem t2_ok {s : String} {g k} (hg : Gap false g) (hk : WslStop k) : Goes (t2 s) (chars s ++ (g ++ k)) k := by
  obtain ⟨v, h⟩ := wsl_ok hg hk
  exact ⟨_, (lit_ok (chars s) (g ++ k)).seq h⟩

theorem gap_head {g} (hg : Gap false g) (h : g ≠ []) : ∃ b r, g = b :: r ∧ b ∈ gapChars := by
  cases hg with
  | nil => contradiction
  | @char c w hc _ =>
    refine ⟨c, w, rfl, ?_⟩
    simp only [gapChars, List.mem_append]
    rcases hc with h | h | ⟨h, _⟩
    · exact .inl (.inl h)
    · exact .inl (.inr h)
    · simp at h
  | comment => exact ⟨_, _, rfl, by decide⟩

/-- The token of an operator. -/
def tokOf : Bin → PExp
  | .or => or | .and => and | .cmp => cmp | .eq => eq | .neq => neq | .gte => gte | .gt => gt | .lte => lte | .lt => lt
  | .caret => caret | .amp => amp | .bitl => bitl | .bitr => bitr | .plus => plus | .minus => minus | .times => times
  | .div => div | .rem => rem | .pow => pow

theorem tok_ok {o : Bin} {sp : String} (hsp : sp ∈ o.spellings) {g i : List Byte} (hg : Gap false g) (hi : WslStop i)
    (hc : Head (fun c => contChar c = false) (g ++ i)) : Goes (tokOf o) (chars sp ++ (g ++ i)) i := by
  obtain ⟨v, hw⟩ := wsl_ok hg hi
  cases o <;> simp only [Bin.spellings, List.mem_cons, List.not_mem_nil, or_false] at hsp
  case or =>
    subst hsp
    obtain ⟨u, h⟩ := word_ok (s := "or") hc
    exact ⟨_, Gives.seq (Gives.alt2 (fails_first _ (by decide) (by decide) (by decide)) h) hw⟩
  case and =>
    rcases hsp with rfl | rfl
    · obtain ⟨u, h⟩ := word_ok (s := "and") hc
      exact ⟨_, Gives.seq (Gives.alt2 (fails_first _ (by decide) (by decide) (by decide)) h) hw⟩
    · exact ⟨_, Gives.seq (Gives.alt1 (lit_ok (chars "&&") (g ++ i))) hw⟩
  all_goals subst hsp; exact t2_ok hg hi

/-- An alternative before which the others fail. -/
theorem alts_pick {pre post : List PExp} {e : PExp} {i r} (hp : ∀ a ∈ pre, G a i none) (h : G e i (some r)) :
    G (alts (pre ++ e :: post)) i (some r) := by
  induction pre with
  | nil =>
    cases post with
    | nil => exact h
    | cons b l => exact h.alt1
  | cons a pre ih =>
    have h1 := hp a (by simp)
    have h2 := ih fun b hb => hp b (by simp [hb])
    cases pre with
    | nil => exact h1.alt2 h2
    | cons b l => exact h1.alt2 h2

def opAlt (ℓ : Nat) (o : PExp × Kind) : PExp := .act (fun y => .node o.2 .nil y .nil) (right o.1 (.nt (ntOf (ℓ + 1))))
/-- The operators tried before `o`. -/
def before : Bin → List (PExp × Kind)
  | .and => [(or, .or)]
  | .eq => [(cmp, .cmp)]
  | .neq => [(cmp, .cmp), (eq, .eq)]
  | .gt => [(gte, .gte)]
  | .lte => [(gte, .gte), (gt, .gt)]
  | .lt => [(gte, .gte), (gt, .gt), (lte, .lte)]
  | .caret => [(pipe, .pipe)]
  | .bitr => [(bitl, .bitl)]
  | .minus => [(plus, .plus)]
  | .div => [(times, .times)]
  | .rem => [(times, .times), (div, .div)]
  | _ => []
theorem ops_before (o : Bin) : ∃ post, opAlts o.level =
    alts ((before o).map (opAlt o.level) ++ opAlt o.level (tokOf o, o.kind) :: post) := by
  refine ⟨((opsOf o.level).drop ((before o).length + 1)).map (opAlt o.level), ?_⟩
  cases o <;> rfl

theorem before_fail : ∀ o ∈ bins, ∀ p ∈ opHeads o, ∀ a ∈ (before o).map (opAlt o.level), runPre rule 20 a p = some none := by
  intro o
  cases o <;> decide +kernel

theorem op_step {o : Bin} {sp : String} (hsp : sp ∈ o.spellings) {g i v j} (hg : Gap false g) (hne : g ≠ []) (hi : WslStop i)
    (h : G (.nt (ntOf (o.level + 1))) i (some (v, j))) :
    G (opAlts o.level) (chars sp ++ (g ++ i)) (some (.node o.kind .nil v .nil, j)) := by
  obtain ⟨b, r, rfl, hb⟩ := gap_head hg hne
  obtain ⟨u, ht⟩ := tok_ok hsp hg hi (Head.cons (blank_cont b hb).1)
  obtain ⟨post, e⟩ := ops_before o
  rw [e]
  refine alts_pick (fun a ha => ?_) (Gives.act (g := fun y => .node o.kind .nil y .nil) (right_ok ht h))
  have hp : chars sp ++ [b] ∈ opHeads o := by
    simp only [opHeads, List.mem_flatMap, List.mem_map]
    exact ⟨sp, hsp, b, hb, rfl⟩
  have := fails_pre 20 (before_fail o (mem_bins o) _ hp a ha) (r ++ i)
  simpa using this

/-! ### What follows an operand of an operator -/

theorem spell_byte : ∀ o ∈ bins, ∀ sp ∈ o.spellings, ∃ c r, chars sp = c :: r ∧ (isWordOp sp = false → plainByte c = true) ∧
    c ∉ blanks ∧ c ≠ 0x23#8 := by
  intro o _ sp hsp
  cases o <;> simp only [Bin.spellings, List.mem_cons, List.not_mem_nil, or_false] at hsp
  case and => rcases hsp with rfl | rfl <;> exact ⟨_, _, rfl, by decide, by decide, by decide⟩
  all_goals subst hsp; exact ⟨_, _, rfl, by decide, by decide, by decide⟩

theorem aft_spell {o : Bin} {sp : String} (hsp : sp ∈ o.spellings) {w : List Byte} (hw : Blank w) (hwd : isWordOp sp = true → w ≠ []) (i) :
    Aft w (chars sp ++ i) := by
  obtain ⟨c, r, e, h1, h2, h3⟩ := spell_byte o (mem_bins o) sp hsp
  rw [e]
  cases h : isWordOp sp with
  | false => exact aft_plain (.inl hw) (h1 h)
  | true => exact aft_of (.inl hw) (Head.cons ⟨h2, h3⟩) fun e => absurd e (hwd h)

/-- The alternatives of `sets` tried before the one of `o`. -/
def asgBefore : Bin → Nat
  | .or => 2 | .and => 3 | .caret => 5 | .amp => 6 | .bitl => 7 | .bitr => 8 | .plus => 9 | .minus => 10 | .times => 11
  | .div => 12 | .rem => 13 | .pow => 14 | _ => 0
def asgAlt (o : PExp × Kind) : PExp := .act (fun s => .node o.2 .nil s .nil) (right (.seq o.1 assign) (.nt .sets))
def asgAlts : List PExp := [
      .act (fun s => .node .assign .nil s .nil) (right assign (.nt .sets)),
      .act (fun s => .node .assign .nil s .nil) (right defassign (.nt .value))] ++
    [(or, .or), (and, .and), (pipe, .pipe), (caret, .caret), (amp, .amp), (bitl, .bitl), (bitr, .bitr), (plus, .plus),
     (minus, .minus), (times, .times), (div, .div), (rem, .rem), (pow, .pow)].map asgAlt
theorem setAlts_eq : setAlts = alts asgAlts := rfl
theorem asg_before (o : Bin) (h : o.assigns = true) : ∃ post, asgAlts = asgAlts.take (asgBefore o) ++ asgAlt (tokOf o, o.kind) :: post := by
  refine ⟨asgAlts.drop (asgBefore o + 1), ?_⟩
  cases o <;> first | (simp [Bin.assigns] at h; done) | rfl
theorem asg_fail : ∀ o ∈ bins, o.assigns = true → ∀ sp ∈ o.spellings, ∀ a ∈ asgAlts.take (asgBefore o),
    runPre rule 20 a (chars sp ++ chars "=") = some none := by
  intro o
  cases o <;> decide +kernel

/-- After `or` or `and` no assignment is read. -/
theorem sets_fail1 {o : Bin} (ho : o.level = 0) {sp : String} (hsp : sp ∈ o.spellings) {g i : List Byte} (hg : Gap false g)
    (hne : g ≠ []) (hi : Lead i) : G setAlts (chars sp ++ (g ++ i)) none := by
  obtain ⟨b, r, rfl, hb⟩ := gap_head hg hne
  have key : ∀ e ∈ asgAlts, runPre rule 20 e (chars sp ++ [b]) = some none ∨ e = asgAlt (tokOf o, o.kind) := by
    have k1 : ∀ b ∈ gapChars, ∀ e ∈ asgAlts.take 2 ++ asgAlts.drop 3, runPre rule 20 e (chars "or" ++ [b]) = some none := by decide +kernel
    have k2 : ∀ b ∈ gapChars, ∀ e ∈ asgAlts.take 3 ++ asgAlts.drop 4, runPre rule 20 e (chars "and" ++ [b]) = some none := by decide +kernel
    have k3 : ∀ b ∈ gapChars, ∀ e ∈ asgAlts.take 3 ++ asgAlts.drop 4, runPre rule 20 e (chars "&&" ++ [b]) = some none := by decide +kernel
    intro e he
    cases o <;> simp only [Bin.level, reduceCtorEq, OfNat.ofNat_ne_zero] at ho
    · simp only [Bin.spellings, List.mem_cons, List.not_mem_nil, or_false] at hsp
      subst hsp
      by_cases hx : e ∈ asgAlts.take 2 ++ asgAlts.drop 3
      · exact .inl (k1 b hb e hx)
      · right
        simp only [asgAlts, List.map_cons, List.map_nil, List.cons_append, List.nil_append, List.mem_cons, List.not_mem_nil, or_false,
          List.take_succ_cons, List.take_zero, List.drop_succ_cons, List.drop_zero, List.append_nil, not_or] at he hx
        tauto
    · simp only [Bin.spellings, List.mem_cons, List.not_mem_nil, or_false] at hsp
      by_cases hx : e ∈ asgAlts.take 3 ++ asgAlts.drop 4
      · rcases hsp with rfl | rfl
        · exact .inl (k2 b hb e hx)
        · exact .inl (k3 b hb e hx)
      · right
        simp only [asgAlts, List.map_cons, List.map_nil, List.cons_append, List.nil_append, List.mem_cons, List.not_mem_nil, or_false,
          List.take_succ_cons, List.take_zero, List.drop_succ_cons, List.drop_zero, List.append_nil, not_or] at he hx
        tauto
  rw [setAlts_eq]
  refine alts_fail fun e he => ?_
  rcases key e he with h | rfl
  · have := fails_pre 20 h (r ++ i); simpa using this
  · have hw : WslStop i := by simpa using hi.wsl []
    obtain ⟨u, ht⟩ := tok_ok hsp hg hw (Head.cons (blank_cont b hb).1)
    refine (right_fail1 (ht.seqFail2 (Gives.seqFail1 (lit_fail fun s e => ?_)))).actFail
    obtain ⟨c, t, rfl, hc⟩ := hi
    exact (leadByte_facts c hc).2.2.2.2 (List.cons.inj e).1

theorem stop_bin {o : Bin} {sp : String} (hsp : sp ∈ o.spellings) {w : List Byte} (hw : Blank w) (hwd : isWordOp sp = true → w ≠ [])
    {g i : List Byte} (hg : Gap false g) (hne : g ≠ []) (hi : Lead i) : Stop (o.level + 1) w (chars sp ++ (g ++ i)) := by
  refine ⟨aft_spell hsp hw hwd _, ?_, fun h => sets_fail1 (by omega) hsp hg hne hi⟩
  obtain ⟨b, r, rfl, hb⟩ := gap_head hg hne
  refine .inr (.inl ⟨chars sp ++ [b], ?_, r ++ i, by simp⟩)
  simp only [heads, List.mem_append]
  refine .inl (.inl (.inr ?_))
  simp only [List.mem_flatMap, List.mem_filter, decide_eq_true_eq]
  refine ⟨o, ⟨mem_bins o, by omega⟩, ?_⟩
  simp only [opHeads, List.mem_flatMap, List.mem_map]
  exact ⟨sp, hsp, b, hb, rfl⟩

theorem stop_asgOp {o : Bin} (ho : o.assigns = true) {sp : String} (hsp : sp ∈ o.spellings) {w : List Byte} (hw : Blank w)
    (hwd : isWordOp sp = true → w ≠ []) (i) : Stop 2 w (chars sp ++ (chars "=" ++ i)) := by
  refine ⟨aft_spell hsp hw hwd _, .inr (.inl ⟨chars sp ++ chars "=", ?_, i, by simp⟩), fun h => by omega⟩
  simp only [heads, List.mem_append]
  refine .inl (.inr ?_)
  rw [if_pos (by omega)]
  simp only [asgHeads, List.mem_flatMap, List.mem_filter, List.mem_map]
  exact ⟨o, ⟨mem_bins o, ho⟩, sp, hsp, rfl⟩

theorem gap_lead {g i} (hg : Gap false g) (hi : Lead i) : ∃ c r, g ++ i = c :: r ∧ c ≠ 0x3D#8 := by
  by_cases h : g = []
  · subst h
    obtain ⟨c, r, rfl, hc⟩ := hi
    exact ⟨c, r, rfl, (leadByte_facts c hc).2.2.2.2⟩
  · obtain ⟨b, r, rfl, hb⟩ := gap_head hg h
    refine ⟨b, r ++ i, rfl, ?_⟩
    have : ∀ b ∈ gapChars, b ≠ 0x3D#8 := by decide
    exact this b hb

theorem stop_asg {w : List Byte} (hw : Blank w) {g i} (hg : Gap false g) (hi : Lead i) : Stop 2 w (chars "=" ++ (g ++ i)) := by
  refine ⟨aft_plain (.inl hw) (by decide), .inr (.inr ⟨by omega, ?_⟩), fun h => by omega⟩
  obtain ⟨c, r, e, hc⟩ := gap_lead hg hi
  exact ⟨c, r, by rw [e]; rfl, hc⟩

end Potion.Peg
