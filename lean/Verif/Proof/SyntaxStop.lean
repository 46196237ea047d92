import Verif.Proof.SyntaxTok
/-! What may follow an expression, and which rules fail there. -/
namespace Potion.Peg
open Potion Potion.Spec

def gapChars : List Byte := blanks ++ newlines ++ [0x23#8]
def closers : List (List Byte) := [chars ")", chars ",", [0x0A#8], [0x0D#8], chars "."]
def bins : List Bin := [.or, .and, .cmp, .eq, .neq, .gte, .gt, .lte, .lt, .caret, .amp, .bitl, .bitr, .plus, .minus,
  .times, .div, .rem, .pow]
theorem mem_bins (o : Bin) : o ∈ bins := by cases o <;> decide
/-- How an operator followed by white space begins. -/
def opHeads (o : Bin) : List (List Byte) := o.spellings.flatMap fun sp => gapChars.map fun b => chars sp ++ [b]
def asgHeads : List (List Byte) := (bins.filter Bin.assigns).flatMap fun o => o.spellings.map fun sp => chars sp ++ chars "="
/-- How the text after an expression of a level may begin. -/
def heads (ℓ : Nat) : List (List Byte) :=
  closers ++ (bins.filter fun o => decide (o.level < ℓ)).flatMap opHeads ++ (if 1 < ℓ then asgHeads else []) ++
    (if 10 < ℓ then [chars "++", chars "--"] else [])

/-- The alternatives of `sets` after the first expression. -/
def setAlts : PExp := alts [
      .act (fun s => .node .assign .nil s .nil) (right assign (.nt .sets)),
      .act (fun s => .node .assign .nil s .nil) (right defassign (.nt .value)),
      .act (fun s => .node .or .nil s .nil) (right (.seq or assign) (.nt .sets)),
      .act (fun s => .node .and .nil s .nil) (right (.seq and assign) (.nt .sets)),
      .act (fun s => .node .pipe .nil s .nil) (right (.seq pipe assign) (.nt .sets)),
      .act (fun s => .node .caret .nil s .nil) (right (.seq caret assign) (.nt .sets)),
      .act (fun s => .node .amp .nil s .nil) (right (.seq amp assign) (.nt .sets)),
      .act (fun s => .node .bitl .nil s .nil) (right (.seq bitl assign) (.nt .sets)),
      .act (fun s => .node .bitr .nil s .nil) (right (.seq bitr assign) (.nt .sets)),
      .act (fun s => .node .plus .nil s .nil) (right (.seq plus assign) (.nt .sets)),
      .act (fun s => .node .minus .nil s .nil) (right (.seq minus assign) (.nt .sets)),
      .act (fun s => .node .times .nil s .nil) (right (.seq times assign) (.nt .sets)),
      .act (fun s => .node .div .nil s .nil) (right (.seq div assign) (.nt .sets)),
      .act (fun s => .node .rem .nil s .nil) (right (.seq rem assign) (.nt .sets)),
      .act (fun s => .node .pow .nil s .nil) (right (.seq pow assign) (.nt .sets))]
theorem rule_sets : rule .sets = .act assigned (.seq (.nt .eqs) (opt setAlts)) := rfl

/-- The rule of a level. -/
def ntOf : Nat → NT
  | 0 => .stmt | 1 => .sets | 2 => .eqs | 3 => .cmps | 4 => .bitors | 5 => .bitand | 6 => .bitshift | 7 => .sum
  | 8 => .product | 9 => .power | _ => .expr
/-- The operators of a level. -/
def opsOf : Nat → List (PExp × Kind)
  | 0 => [(or, .or), (and, .and)]
  | 2 => [(cmp, .cmp), (eq, .eq), (neq, .neq)]
  | 3 => [(gte, .gte), (gt, .gt), (lte, .lte), (lt, .lt)]
  | 4 => [(pipe, .pipe), (caret, .caret)]
  | 5 => [(amp, .amp)]
  | 6 => [(bitl, .bitl), (bitr, .bitr)]
  | 7 => [(plus, .plus), (minus, .minus)]
  | 8 => [(times, .times), (div, .div), (rem, .rem)]
  | 9 => [(pow, .pow)]
  | _ => []
def opAlts (ℓ : Nat) : PExp :=
  alts ((opsOf ℓ).map fun o => .act (fun y => .node o.2 .nil y .nil) (right o.1 (.nt (ntOf (ℓ + 1)))))
theorem rule_chain {ℓ} (h : ℓ < 10) (h1 : ℓ ≠ 1) : rule (ntOf ℓ) =
    .act (fun | .pair x (.tup l) => foldOps x l | v => v) (.seq (.nt (ntOf (ℓ + 1))) (.star (opAlts ℓ))) := by
  interval_cases ℓ <;> first | contradiction | rfl

def Starts (ℓ : Nat) (k : List Byte) : Prop :=
  k = [] ∨ (∃ p ∈ heads ℓ, ∃ r, k = p ++ r) ∨ (1 < ℓ ∧ ∃ c r, k = 0x3D#8 :: c :: r ∧ c ≠ 0x3D#8)

/-- What may follow an expression of a level: white space `w` and the text `k`. -/
structure Stop (ℓ : Nat) (w k : List Byte) : Prop where
  aft : Aft w k
  starts : Starts ℓ k
  noAsg : ℓ ≤ 1 → G setAlts k none

theorem heads_mono {ℓ ℓ' : Nat} (h : ℓ ≤ ℓ') {p} (hp : p ∈ heads ℓ) : p ∈ heads ℓ' := by
  simp only [heads, List.mem_append] at hp ⊢
  rcases hp with ((hp | hp) | hp) | hp
  · exact .inl (.inl (.inl hp))
  · refine .inl (.inl (.inr ?_))
    simp only [List.mem_flatMap, List.mem_filter, decide_eq_true_eq] at hp ⊢
    obtain ⟨o, ⟨h1, h2⟩, h3⟩ := hp
    exact ⟨o, ⟨h1, by omega⟩, h3⟩
  · refine .inl (.inr ?_)
    split at hp
    · rw [if_pos (by omega)]; exact hp
    · simp at hp
  · refine .inr ?_
    split at hp
    · rw [if_pos (by omega)]; exact hp
    · simp at hp

theorem Stop.mono {ℓ ℓ' w k} (h : Stop ℓ w k) (hl : ℓ ≤ ℓ') : Stop ℓ' w k := by
  refine ⟨h.aft, ?_, fun h' => h.noAsg (by omega)⟩
  rcases h.starts with h | ⟨p, hp, r, e⟩ | ⟨h1, h2⟩
  · exact .inl h
  · exact .inr (.inl ⟨p, heads_mono hl hp, r, e⟩)
  · exact .inr (.inr ⟨by omega, h2⟩)

theorem starts_fail {e : PExp} {ℓ : Nat} (fuel : Nat) (hs : starOk nulls e = true) (hn : nullable nulls e = false)
    (hp : ∀ p ∈ heads ℓ, runPre rule fuel e p = some none)
    (he : 1 < ℓ → ∀ c r, c ≠ 0x3D#8 → G e (0x3D#8 :: c :: r) none) {k} (h : Starts ℓ k) : G e k none := by
  rcases h with rfl | ⟨p, hp', r, rfl⟩ | ⟨h1, c, r, rfl, hc⟩
  · exact fails_nil hs hn
  · exact fails_pre fuel (hp p hp') r
  · exact he h1 c r hc

theorem ops_fail {ℓ} (h : ℓ < 10) (h1 : ℓ ≠ 1) {k} (hk : Starts ℓ k) : G (opAlts ℓ) k none := by
  interval_cases ℓ
  · exact starts_fail 150 (by decide) (by decide) (by decide +kernel) (by omega) hk
  · contradiction
  · refine starts_fail 150 (by decide) (by decide) (by decide +kernel) (fun _ c r hc => ?_) hk
    refine alts_fail fun e he => ?_
    simp only [opsOf, List.map_cons, List.map_nil, List.mem_cons, List.not_mem_nil, or_false] at he
    rcases he with rfl | rfl | rfl
    · exact fails_first _ (by decide) (by decide) (by decide)
    · refine (right_fail1 (Gives.seqFail1 (lit_fail fun s e => ?_))).actFail
      exact hc (List.cons.inj (List.cons.inj e).2).1
    · exact fails_first _ (by decide) (by decide) (by decide)
  all_goals
    refine starts_fail 150 (by decide) (by decide) (by decide +kernel) (fun _ c r hc => ?_) hk
    exact fails_first _ (by decide) (by decide) (by decide)

theorem call_fail {k} (hk : Starts 10 k) : G (.nt .call) k none :=
  starts_fail 150 (by decide) (by decide) (by decide +kernel) (fun _ c r hc => fails_first _ (by decide) (by decide) (by decide)) hk
theorem value_fail {k} (hk : Starts 11 k) : G (.nt .value) k none :=
  starts_fail 150 (by decide) (by decide) (by decide +kernel) (fun _ c r hc => fails_first _ (by decide) (by decide) (by decide)) hk
theorem list_fail {k} (hk : Starts 11 k) : G (.nt .list) k none :=
  starts_fail 150 (by decide) (by decide) (by decide +kernel) (fun _ c r hc => fails_first _ (by decide) (by decide) (by decide)) hk
theorem block_fail {k} (hk : Starts 11 k) : G (.nt .block) k none :=
  starts_fail 150 (by decide) (by decide) (by decide +kernel) (fun _ c r hc => fails_first _ (by decide) (by decide) (by decide)) hk
theorem pplus_fail {k} (hk : Starts 10 k) : G pplus k none :=
  starts_fail 150 (by decide) (by decide) (by decide +kernel) (fun _ c r hc => fails_first _ (by decide) (by decide) (by decide)) hk
theorem mminus_fail {k} (hk : Starts 10 k) : G mminus k none :=
  starts_fail 150 (by decide) (by decide) (by decide +kernel) (fun _ c r hc => fails_first _ (by decide) (by decide) (by decide)) hk
theorem sets_fail0 {k} (hk : Starts 0 k) : G setAlts k none :=
  starts_fail 150 (by decide) (by decide) (by decide +kernel) (by omega) hk

/-- What may follow a message. -/
structure NStop (w k : List Byte) : Prop where
  aft : Aft w k
  value : G (.nt .value) k none
  list : G (.nt .list) k none
  block : G (.nt .block) k none

theorem Stop.nstop {ℓ w k} (h : Stop ℓ w k) (hl : ℓ ≤ 11) : NStop w k :=
  have s := (h.mono hl).starts
  ⟨h.aft, value_fail s, list_fail s, block_fail s⟩

theorem NStop.closure {w k} (h : NStop w k) : G (.nt .closure) k none :=
  Gives.nt (Gives.actFail (Gives.seqFail2 (Gives.alt2 h.list (Gives.act (g := fun _ => .stale) .eps)) h.block))

/-! ### White space and what follows it -/

theorem space_head {w k} (h : Space w k) (hw : w ≠ []) : ∃ c r, w = c :: r ∧ (c ∈ blanks ∨ c = 0x23#8) := by
  rcases h with h | ⟨b, s, rfl, hb, _⟩
  · cases w with
    | nil => contradiction
    | cons c r => exact ⟨c, r, rfl, .inl (h c (by simp))⟩
  · cases b with
    | nil => exact ⟨_, _, rfl, .inr rfl⟩
    | cons c r => exact ⟨c, _, rfl, .inl (hb c (by simp))⟩

theorem blank_cont : ∀ c : Byte, c ∈ gapChars → contChar c = false ∧ c ≠ 0x2E#8 := by decide +kernel

theorem aft_of {w k} (hs : Space w k) (hk : WsStop k) (h : w = [] → Head (fun c => contChar c = false) k ∧ NoFrac k) : Aft w k := by
  by_cases hw : w = []
  · subst hw; exact ⟨hs, hk, (h rfl).1, (h rfl).2⟩
  · obtain ⟨c, r, rfl, hc⟩ := space_head hs hw
    have := blank_cont c (by simp only [gapChars, List.mem_append, List.mem_cons, List.not_mem_nil, or_false]; tauto)
    refine ⟨hs, hk, Head.cons this.1, fun d s e => ?_⟩
    simp at e; exact absurd e.1 this.2

theorem space_append {w k} (h : Space w k) (hk : k ≠ []) (r) : Space w (k ++ r) := by
  rcases h with h | ⟨b, s, h1, h2, h3, h4⟩
  · exact .inl h
  · refine .inr ⟨b, s, h1, h2, h3, .inr ?_⟩
    rcases h4 with h4 | ⟨c, t, rfl, h4⟩
    · contradiction
    · exact ⟨c, t ++ r, rfl, h4⟩

theorem noFrac_cons {c r} (h : c ≠ 0x2E#8) : NoFrac (c :: r) := by
  intro d s e; simp at e; exact absurd e.1 h

/-- A byte that ends every token. -/
def plainByte (c : Byte) : Bool := !contChar c && decide (c ≠ 0x2E#8) && decide (c ∉ blanks) && decide (c ≠ 0x23#8)

theorem aft_plain {w c r} (hs : Space w (c :: r)) (hc : plainByte c = true) : Aft w (c :: r) := by
  simp only [plainByte, Bool.and_eq_true, Bool.not_eq_true', decide_eq_true_eq] at hc
  exact aft_of hs (Head.cons ⟨hc.1.2, hc.2⟩) fun _ => ⟨Head.cons hc.1.1.1, noFrac_cons hc.1.1.2⟩

theorem aft_dot {w r} (hs : Space w (0x2E#8 :: r)) (hr : Head (fun c => contChar c = false) r) : Aft w (0x2E#8 :: r) := by
  refine aft_of hs (Head.cons (by decide)) fun _ => ⟨Head.cons (by decide), fun d s e => ?_⟩
  simp only [List.cons.injEq, true_and] at e
  have := hr d s e
  have all : ∀ d : Byte, contChar d = false → isDigitChar d = false := by decide +kernel
  exact all d this

theorem aft_nil {w} (hs : Space w []) : Aft w [] :=
  aft_of hs Head.nil fun _ => ⟨Head.nil, fun d s e => by simp at e⟩

end Potion.Peg
