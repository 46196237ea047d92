import Verif.Proof.PegFirst
import Verif.Proof.Decimal
import Verif.Spec.Syntax
/-! Tokens and white space: what the lexical rules of the grammar do. -/
namespace Potion.Peg
open Potion Potion.Spec

abbrev G (e : PExp) (i : List Byte) (r : Res) : Prop := Gives rule e i r
/-- `e` matches the input up to `k`. -/
def Goes (e : PExp) (i k : List Byte) : Prop := ∃ v, G e i (some (v, k))

theorem ascii_chars (s : String) : ascii s = chars s := rfl

theorem chr_ok {p : Byte → Bool} {c k} (h : p c = true) : G (.chr p) (c :: k) (some (.none, k)) := ⟨1, by simp [run, h]⟩
theorem lit_ok (s k : List Byte) : G (.lit s) (s ++ k) (some (.none, k)) := by
  refine ⟨1, ?_⟩
  have : matchLit s (s ++ k) = some k := by
    induction s with
    | nil => rfl
    | cons c s ih => simp [matchLit, ih]
  simp [run, this]
theorem matchLit_eq : ∀ {s i r : List Byte}, matchLit s i = some r → i = s ++ r
  | [], i, r, h => by simpa [matchLit] using h
  | _ :: _, [], r, h => by simp [matchLit] at h
  | c :: cs, b :: bs, r, h => by
    simp only [matchLit] at h
    split at h
    · rename_i e; subst e; rw [matchLit_eq h]; rfl
    · simp at h
theorem lit_fail {s i : List Byte} (h : ∀ r, i ≠ s ++ r) : G (.lit s) i none := by
  refine ⟨1, ?_⟩
  cases hm : matchLit s i with
  | none => simp [run, hm]
  | some r => exact absurd (matchLit_eq hm) (h r)
theorem lit_total (s i : List Byte) : G (.lit s) i none ∨ ∃ r, i = s ++ r ∧ G (.lit s) i (some (.none, r)) := by
  cases hm : matchLit s i with
  | none => exact .inl ⟨1, by simp [run, hm]⟩
  | some r => exact .inr ⟨r, matchLit_eq hm, 1, by simp [run, hm]⟩

theorem right_ok {a b i v j w k} (h1 : G a i (some (v, j))) (h2 : G b j (some (w, k))) : G (right a b) i (some (w, k)) :=
  (h1.seq h2).act
theorem left_ok {a b i v j w k} (h1 : G a i (some (v, j))) (h2 : G b j (some (w, k))) : G (left a b) i (some (v, k)) :=
  (h1.seq h2).act
theorem right_fail1 {a b i} (h : G a i none) : G (right a b) i none := h.seqFail1.actFail
theorem right_fail2 {a b i v j} (h : G a i (some (v, j))) (h2 : G b j none) : G (right a b) i none := (h.seqFail2 h2).actFail
theorem left_fail1 {a b i} (h : G a i none) : G (left a b) i none := h.seqFail1.actFail
theorem left_fail2 {a b i v j} (h : G a i (some (v, j))) (h2 : G b j none) : G (left a b) i none := (h.seqFail2 h2).actFail
theorem opt_none {a i} (h : G a i none) : G (opt a) i (some (.none, i)) := h.alt2 .eps
theorem orNil_none {a i} (h : G a i none) : G (orNil a) i (some (.nil, i)) := h.alt2 (Gives.act (g := fun _ => .nil) .eps)

theorem alts_cons {a b l i r} (h : G (.alt a (alts (b :: l))) i r) : G (alts (a :: b :: l)) i r := h
theorem alts_fail {l : List PExp} {i} (h : ∀ e ∈ l, G e i none) : G (alts l) i none := by
  induction l with
  | nil => exact ⟨3, rfl⟩
  | cons a l ih =>
    cases l with
    | nil => exact h a (by simp)
    | cons b l => exact (h a (by simp)).alt2 (ih fun e he => h e (by simp [he]))

theorem Goes.step {a i j k l} (h1 : G a i (some (l, j))) (h2 : Goes (.star a) j k) : Goes (.star a) i k := by
  obtain ⟨v, f, h2⟩ := h2
  have : ∃ l, v = .tup l := by
    cases f with
    | zero => simp [run] at h2
    | succ f =>
      rw [run] at h2
      split at h2 <;> try simp at h2
      · exact ⟨_, h2.1.symm⟩
      · split at h2 <;> simp at h2 <;> exact ⟨_, h2.1.symm⟩
  obtain ⟨l, rfl⟩ := this
  exact ⟨_, h1.starCons ⟨f, h2⟩⟩

/-- What was repeated fails where the repetition ends. -/
theorem star_end {a i v j} (h : G (.star a) i (some (v, j))) : G a j none := by
  obtain ⟨f, h⟩ := h
  induction f generalizing i v with
  | zero => simp [run] at h
  | succ f ih =>
    rw [run] at h
    split at h
    · simp at h
    · rename_i e; simp at h; rw [← h.2]; exact ⟨f, e⟩
    · split at h
      · simp at h
      · simp at h
      · rename_i e; simp only [Option.some.injEq, Prod.mk.injEq] at h; rw [h.2] at e; exact ih e
      · rename_i e; simp only [Option.some.injEq, Prod.mk.injEq] at h; rw [h.2] at e; exact ih e

theorem alt_none {a b i} (h : G (.alt a b) i none) : G a i none := by
  obtain ⟨f, h⟩ := h
  cases f with
  | zero => simp [run] at h
  | succ f =>
    rw [run] at h
    split at h
    · simp at h
    · rename_i e; exact ⟨f, e⟩
    · simp at h

/-! ### White space -/

/-- The first byte of `k`, if any, satisfies `p`. -/
def Head (p : Byte → Prop) (k : List Byte) : Prop := ∀ c r, k = c :: r → p c
theorem Head.nil {p} : Head p [] := by intro c r h; simp at h
theorem Head.cons {p : Byte → Prop} {c r} (h : p c) : Head p (c :: r) := by intro d s e; simp at e; rw [← e.1]; exact h
theorem Head.mono {p q : Byte → Prop} {k} (h : Head p k) (hpq : ∀ c, p c → q c) : Head q k := fun c r e => hpq c (h c r e)

theorem fails_head {e : PExp} {k : List Byte} (hs : starOk nulls e = true) (hn : nullable nulls e = false)
    (h : Head (fun c => mayStart nulls firsts c e = false) k) : G e k none := by
  cases k with
  | nil => exact fails_nil hs hn
  | cons c k => exact fails_first k hs hn (h c k rfl)

/-- Where white space within a line ends. -/
def WsStop (k : List Byte) : Prop := Head (fun c => c ∉ blanks ∧ c ≠ 0x23#8) k
/-- Where white space over lines ends. -/
def WslStop (k : List Byte) : Prop := Head (fun c => c ∉ blanks ∧ c ∉ newlines ∧ c ≠ 0x23#8) k

theorem eol_ok {c} (h : c ∈ newlines) (k) : ∃ v, G eol (c :: k) (some (v, k)) ∨ (c = 0x0D#8 ∧ ∃ r, k = 0x0A#8 :: r ∧ G eol (c :: k) (some (v, r))) := by
  simp only [newlines, List.mem_cons, List.not_mem_nil, or_false] at h
  rcases h with rfl | rfl
  · exact ⟨_, .inl ⟨4, rfl⟩⟩
  · cases k with
    | nil => exact ⟨_, .inl ⟨4, rfl⟩⟩
    | cons d r =>
      by_cases hd : d = 0x0A#8
      · subst hd; exact ⟨_, .inr ⟨rfl, r, rfl, 4, rfl⟩⟩
      · refine ⟨.none, .inl ?_⟩
        refine Gives.alt2 (lit_fail ?_) (Gives.alt2 (lit_fail ?_) (lit_ok [0x0D#8] (d :: r)))
        · intro s e; simp at e; exact hd e.1
        · intro s e; simp at e

theorem space_ok {c} (h : c ∈ blanks) (k) : G space (c :: k) (some (.none, k)) := by
  simp only [blanks, List.mem_cons, List.not_mem_nil, or_false] at h
  rcases h with rfl | rfl | rfl | rfl <;> exact ⟨2, rfl⟩

theorem printable_utf8 : ∀ c : Byte, (decide (c = 0x09#8) || decide (0x20 ≤ c.toNat) && decide (c.toNat ≤ 0x7E)) = true →
    mayStart nulls firsts c eol = false ∧ (between [(9, 9), (32, 126)] c) = true := by decide +kernel

theorem printable_step {c} (h : Printable c) (k) : mayStart nulls firsts c eol = false ∧ G utf8 (c :: k) (some (.none, k)) := by
  have := printable_utf8 c (by simpa [Printable] using h)
  exact ⟨this.1, Gives.alt1 (chr_ok this.2)⟩

theorem comment_ok {s k} (hs : ∀ c ∈ s, Printable c) (hk : k = [] ∨ ∃ c r, k = c :: r ∧ c ∈ newlines) :
    Goes comment (0x23#8 :: (s ++ k)) k := by
  have : Goes (.star (.seq (.not eol) utf8)) (s ++ k) k := by
    induction s with
    | nil =>
      refine ⟨_, Gives.starNil ?_⟩
      rcases hk with rfl | ⟨c, r, rfl, hc⟩
      · exact ⟨9, rfl⟩
      · obtain ⟨v, h | ⟨_, s, _, h⟩⟩ := eol_ok hc r <;> exact h.not2.seqFail1
    | cons c s ih =>
      have h := printable_step (hs c (by simp)) (s ++ k)
      exact Goes.step ((Gives.not1 (fails_first _ (by decide) (by decide) h.1)).seq h.2) (ih fun d hd => hs d (by simp [hd]))
  obtain ⟨v, h⟩ := this
  exact ⟨_, (lit_ok [0x23#8] (s ++ k)).seq h⟩

theorem ws_nil {k} (hk : WsStop k) : G ws k (some (.tup [], k)) := by
  refine Gives.starNil (fails_head (by decide) (by decide) (hk.mono fun c h => ?_))
  have : ∀ c : Byte, c ∉ blanks → c ≠ 0x23#8 → mayStart nulls firsts c (.alt space comment) = false := by decide +kernel
  exact this c h.1 h.2

theorem ws_ok {w k} (hw : Space w k) (hk : WsStop k) : Goes ws (w ++ k) k := by
  have blank : ∀ {b i j}, Blank b → Goes ws i j → Goes ws (b ++ i) j := by
    intro b i j hb h
    induction b with
    | nil => exact h
    | cons c b ih =>
      exact Goes.step (Gives.alt1 (space_ok (hb c (by simp)) _)) (ih fun d hd => hb d (by simp [hd]))
  rcases hw with hw | ⟨b, s, rfl, hb, hs, he⟩
  · exact blank hw ⟨_, ws_nil hk⟩
  · rw [List.append_assoc]
    refine blank hb ?_
    obtain ⟨v, h⟩ := comment_ok hs he
    exact Goes.step (Gives.alt2 (fails_first _ (by decide) (by decide) (by decide)) h) ⟨_, ws_nil hk⟩

/-- The white space of `sep` and `--`. -/
theorem gap_star {e : PExp} {comma : Bool} {g i j : List Byte}
    (hsp : ∀ c k, c ∈ blanks ∨ (comma = true ∧ c = 0x2C#8) → Goes e (c :: k) k)
    (hcm : ∀ s k, (∀ c ∈ s, Printable c) → (k = [] ∨ ∃ c r, k = c :: r ∧ c ∈ newlines) → Goes e (0x23#8 :: (s ++ k)) k)
    (heol : ∀ c k, c ∈ newlines → Goes e (c :: k) k ∨ (c = 0x0D#8 ∧ ∃ r, k = 0x0A#8 :: r ∧ Goes e (c :: k) r))
    (hg : Gap comma g) (h : Goes (.star e) i j) (hi : ∀ r, i ≠ 0x0A#8 :: r) : Goes (.star e) (g ++ i) j := by
  -- a newline pair is matched at once
  suffices H : ∀ n g, g.length ≤ n → Gap comma g → Goes (.star e) (g ++ i) j ∧ (∀ r, g ++ i = 0x0A#8 :: r → Goes (.star e) r j) from
    (H _ g (Nat.le_refl _) hg).1
  intro n
  induction n with
  | zero =>
    intro g hl _
    have : g = [] := List.eq_nil_of_length_eq_zero (by omega)
    subst this
    exact ⟨h, fun r e => absurd e (hi r)⟩
  | succ n ih =>
    have nl : ∀ c w, c ∈ newlines → w.length ≤ n → Gap comma w →
        Goes (.star e) (c :: (w ++ i)) j ∧ (∀ r, c :: (w ++ i) = 0x0A#8 :: r → Goes (.star e) r j) := by
      intro c w hc hl hw
      obtain ⟨h1, h2⟩ := ih w hl hw
      constructor
      · rcases heol c (w ++ i) hc with ⟨v, hv⟩ | ⟨_, r, er, v, hv⟩
        · exact Goes.step hv h1
        · exact Goes.step hv (h2 r er)
      · intro r e; simp at e; rw [← e.2]; exact h1
    intro g hl hg
    cases hg with
    | nil => exact ⟨h, fun r e => absurd e (hi r)⟩
    | @char c w hc hw =>
      simp only [List.length_cons] at hl
      have h1 := (ih w (by omega) hw).1
      by_cases hn : c ∈ newlines
      · exact nl c w hn (by omega) hw
      · have hc' : c ∈ blanks ∨ (comma = true ∧ c = 0x2C#8) := by
          rcases hc with h | h | h
          · exact .inl h
          · exact absurd h hn
          · exact .inr h
        obtain ⟨v, hv⟩ := hsp c (w ++ i) hc'
        refine ⟨Goes.step hv h1, fun r e => ?_⟩
        simp at e
        rw [← e.2]; exact h1
    | @comment s m w hs hm hw =>
      simp only [List.length_cons, List.length_append] at hl
      obtain ⟨v, hv⟩ := hcm s (m :: (w ++ i)) hs (.inr ⟨m, _, rfl, hm⟩)
      have h1 := (nl m w hm (by omega) hw).1
      refine ⟨?_, fun r e => by simp at e⟩
      have := Goes.step hv h1
      simpa using this

theorem wsl_nil {k} (hk : WslStop k) : G wsl k (some (.tup [], k)) := by
  refine Gives.starNil (fails_head (by decide) (by decide) (hk.mono fun c h => ?_))
  have : ∀ c : Byte, c ∉ blanks → c ∉ newlines → c ≠ 0x23#8 → mayStart nulls firsts c (alts [space, comment, eol]) = false := by
    decide +kernel
  exact this c h.1 h.2.1 h.2.2

theorem wsl_ok {g k} (hg : Gap false g) (hk : WslStop k) : Goes wsl (g ++ k) k := by
  refine gap_star (e := alts [space, comment, eol]) ?_ ?_ ?_ hg ⟨_, wsl_nil hk⟩ ?_
  · intro c k hc; simp at hc; exact ⟨_, Gives.alt1 (space_ok hc k)⟩
  · intro s k hs hk
    obtain ⟨v, h⟩ := comment_ok hs hk
    exact ⟨_, Gives.alt2 (fails_first _ (by decide) (by decide) (by decide)) (Gives.alt1 h)⟩
  · intro c k hc
    have f1 : G space (c :: k) none := by
      simp only [newlines, List.mem_cons, List.not_mem_nil, or_false] at hc
      rcases hc with rfl | rfl <;> exact fails_first _ (by decide) (by decide) (by decide)
    have f2 : G comment (c :: k) none := by
      simp only [newlines, List.mem_cons, List.not_mem_nil, or_false] at hc
      rcases hc with rfl | rfl <;> exact fails_first _ (by decide) (by decide) (by decide)
    obtain ⟨v, h | ⟨e, r, er, h⟩⟩ := eol_ok hc k
    · exact .inl ⟨_, f1.alt2 (f2.alt2 h)⟩
    · exact .inr ⟨e, r, er, _, f1.alt2 (f2.alt2 h)⟩
  · intro r e; exact (hk _ r e).2.1 (by decide)

/-- Where a separator ends. -/
def SepStop (k : List Byte) : Prop := Head (fun c => c ∉ blanks ∧ c ∉ newlines ∧ c ≠ 0x23#8 ∧ c ≠ 0x2C#8) k

theorem sepStar_nil {k} (hk : SepStop k) : Goes (.star (alts [space, comment, eol, tok ","])) k k := by
  refine ⟨_, Gives.starNil (fails_head (by decide) (by decide) (hk.mono fun c h => ?_))⟩
  have : ∀ c : Byte, c ∉ blanks → c ∉ newlines → c ≠ 0x23#8 → c ≠ 0x2C#8 →
    mayStart nulls firsts c (alts [space, comment, eol, tok ","]) = false := by decide +kernel
  exact this c h.1 h.2.1 h.2.2.1 h.2.2.2

/-- Separators, with white space after them. -/
theorem sep_ok {sp w k} (hs : Separator sp) (hw : Space w k) (hk : SepStop k) : Goes sep (sp ++ (w ++ k)) k := by
  have hsp : ∀ c k, c ∈ blanks ∨ (true = true ∧ c = 0x2C#8) → Goes (alts [space, comment, eol, tok ","]) (c :: k) k := by
    intro c k hc
    rcases hc with hc | ⟨_, rfl⟩
    · exact ⟨_, Gives.alt1 (space_ok hc k)⟩
    · exact ⟨_, 9, rfl⟩
  have hcm : ∀ s k, (∀ c ∈ s, Printable c) → (k = [] ∨ ∃ c r, k = c :: r ∧ c ∈ newlines) →
      Goes (alts [space, comment, eol, tok ","]) (0x23#8 :: (s ++ k)) k := by
    intro s k hs hk
    obtain ⟨v, h⟩ := comment_ok hs hk
    exact ⟨_, Gives.alt2 (fails_first _ (by decide) (by decide) (by decide)) (Gives.alt1 h)⟩
  have heol : ∀ c k, c ∈ newlines → Goes (alts [space, comment, eol, tok ","]) (c :: k) k ∨
      (c = 0x0D#8 ∧ ∃ r, k = 0x0A#8 :: r ∧ Goes (alts [space, comment, eol, tok ","]) (c :: k) r) := by
    intro c k hc
    have f1 : G space (c :: k) none := by
      simp only [newlines, List.mem_cons, List.not_mem_nil, or_false] at hc
      rcases hc with rfl | rfl <;> exact fails_first _ (by decide) (by decide) (by decide)
    have f2 : G comment (c :: k) none := by
      simp only [newlines, List.mem_cons, List.not_mem_nil, or_false] at hc
      rcases hc with rfl | rfl <;> exact fails_first _ (by decide) (by decide) (by decide)
    obtain ⟨v, h | ⟨e, r, er, h⟩⟩ := eol_ok hc k
    · exact .inl ⟨_, f1.alt2 (f2.alt2 h.alt1)⟩
    · exact .inr ⟨e, r, er, _, f1.alt2 (f2.alt2 h.alt1)⟩
  have stop : Goes (.star (alts [space, comment, eol, tok ","])) (w ++ k) k ∧ ∀ r, w ++ k ≠ 0x0A#8 :: r := by
    have bl : ∀ {b i}, Blank b → Goes (.star (alts [space, comment, eol, tok ","])) i k →
        Goes (.star (alts [space, comment, eol, tok ","])) (b ++ i) k := by
      intro b i hb h
      induction b with
      | nil => exact h
      | cons c b ih =>
        exact Goes.step (Gives.alt1 (space_ok (hb c (by simp)) _)) (ih fun d hd => hb d (by simp [hd]))
    have nonl : ∀ {b i}, Blank b → (∀ r, i ≠ 0x0A#8 :: r) → ∀ r, b ++ i ≠ 0x0A#8 :: r := by
      intro b i hb hi r e
      cases b with
      | nil => exact hi r e
      | cons c b => simp at e; have := hb c (by simp); rw [e.1] at this; revert this; decide
    rcases hw with hw | ⟨b, s, rfl, hb, hs', he⟩
    · exact ⟨bl hw (sepStar_nil hk), nonl hw fun r e => (hk _ r e).2.1 (by decide)⟩
    · rw [List.append_assoc]
      refine ⟨bl hb ?_, nonl hb (by intro r e; simp at e)⟩
      obtain ⟨v, hv⟩ := hcm s k hs' he
      exact Goes.step hv (sepStar_nil hk)
  obtain ⟨c, g, rfl, h, hg⟩ := hs
  obtain ⟨h1, h2⟩ := stop
  have hG := gap_star hsp hcm heol hg h1 h2
  by_cases hn : c ∈ newlines
  · obtain ⟨v, h | ⟨e, r, er, h⟩⟩ := eol_ok hn (g ++ (w ++ k))
    · obtain ⟨u, hu⟩ := hG
      exact ⟨_, (Gives.alt1 h).seq hu⟩
    · have : Goes (.star (alts [space, comment, eol, tok ","])) r k := by
        cases hg with
        | nil => exact absurd er (h2 r)
        | char hc hw' =>
          simp only [List.cons_append, List.cons.injEq] at er
          obtain ⟨_, rfl⟩ := er
          exact gap_star hsp hcm heol hw' h1 h2
        | comment => simp at er
      obtain ⟨u, hu⟩ := this
      exact ⟨_, (Gives.alt1 h).seq hu⟩
  · rcases h with rfl | h
    · obtain ⟨u, hu⟩ := hG
      exact ⟨_, (Gives.alt2 (fails_first _ (by decide) (by decide) (by decide)) (lit_ok [0x2C#8] _)).seq hu⟩
    · exact absurd h hn

end Potion.Peg
