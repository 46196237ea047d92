import Verif.Proof.Peg
import Verif.Model.Syntax
/-! Termination of parsing: no left recursion, and nothing repeated that may match the empty string. -/
namespace Potion.Peg
open Potion

/-- May the expression succeed without consuming anything? -/
def nullable (N : NT → Bool) : PExp → Bool
  | .chr _ => false
  | .lit s => s.isEmpty
  | .eps => true
  | .seq a b => nullable N a && nullable N b
  | .alt a b => nullable N a || nullable N b
  | .star _ => true
  | .not _ => true
  | .nt n => N n
  | .cap a => nullable N a
  | .act _ a => nullable N a

/-- Only what consumes something is repeated. -/
def starOk (N : NT → Bool) : PExp → Bool
  | .chr _ | .lit _ | .eps | .nt _ => true
  | .seq a b => starOk N a && starOk N b
  | .alt a b => starOk N a && starOk N b
  | .star a => !nullable N a && starOk N a
  | .not a => starOk N a
  | .cap a => starOk N a
  | .act _ a => starOk N a

/-- The rules called before anything has been consumed have a rank below `r`. -/
def leftOk (N : NT → Bool) (rank : NT → Nat) (r : Nat) : PExp → Bool
  | .chr _ | .lit _ | .eps => true
  | .seq a b => leftOk N rank r a && (!nullable N a || leftOk N rank r b)
  | .alt a b => leftOk N rank r a && leftOk N rank r b
  | .star a => leftOk N rank r a
  | .not a => leftOk N rank r a
  | .nt n => decide (rank n < r)
  | .cap a => leftOk N rank r a
  | .act _ a => leftOk N rank r a

theorem matchLit_length : ∀ {s i r : List Byte}, matchLit s i = some r → r.length + s.length = i.length
  | [], i, r, h => by simp [matchLit] at h; simp [h]
  | _ :: _, [], r, h => by simp [matchLit] at h
  | c :: cs, b :: bs, r, h => by
    simp only [matchLit] at h
    split at h
    · have := matchLit_length h; simp; omega
    · simp at h

theorem matchLit_suffix : ∀ {s i r : List Byte}, matchLit s i = some r → ∃ t, t ++ r = i
  | [], i, r, h => by simp [matchLit] at h; exact ⟨[], by simp [h]⟩
  | _ :: _, [], r, h => by simp [matchLit] at h
  | c :: cs, b :: bs, r, h => by
    simp only [matchLit] at h
    split at h
    · obtain ⟨t, ht⟩ := matchLit_suffix h; exact ⟨b :: t, by simp [ht]⟩
    · simp at h

theorem run_suffix {rule : NT → PExp} {f : Nat} : ∀ {e i v i'}, run rule f e i = some (some (v, i')) → ∃ t, t ++ i' = i := by
  induction f with
  | zero => intro e i v i' h; simp [run] at h
  | succ f ih =>
    intro e i v i' h
    cases e with
    | chr p =>
      cases i with
      | nil => simp [run] at h
      | cons b bs =>
        simp only [run] at h
        split at h
        · simp at h; obtain ⟨_, rfl⟩ := h; exact ⟨[b], rfl⟩
        · simp at h
    | lit s =>
      simp only [run, Option.some.injEq, Option.map_eq_some_iff, Prod.mk.injEq] at h
      obtain ⟨r, h1, _, rfl⟩ := h
      exact matchLit_suffix h1
    | eps => simp [run] at h; obtain ⟨_, rfl⟩ := h; exact ⟨[], rfl⟩
    | seq a b =>
      rw [run] at h
      cases ha : run rule f a i with
      | none => simp [ha] at h
      | some x =>
        rw [ha] at h
        cases x with
        | none => simp at h
        | some x =>
          obtain ⟨w, j⟩ := x
          simp only at h
          cases hb : run rule f b j with
          | none => simp [hb] at h
          | some y =>
            rw [hb] at h
            cases y with
            | none => simp at h
            | some y =>
              obtain ⟨u, k⟩ := y
              simp only [Option.some.injEq, Prod.mk.injEq] at h
              obtain ⟨_, rfl⟩ := h
              obtain ⟨t1, h1⟩ := ih ha
              obtain ⟨t2, h2⟩ := ih hb
              exact ⟨t1 ++ t2, by rw [List.append_assoc, h2, h1]⟩
    | alt a b =>
      rw [run] at h
      cases ha : run rule f a i with
      | none => simp [ha] at h
      | some x =>
        rw [ha] at h
        cases x with
        | none => exact ih h
        | some x => simp only [Option.some.injEq] at h; subst h; exact ih ha
    | star a =>
      rw [run] at h
      cases ha : run rule f a i with
      | none => simp [ha] at h
      | some x =>
        rw [ha] at h
        cases x with
        | none => simp at h; obtain ⟨_, rfl⟩ := h; exact ⟨[], rfl⟩
        | some x =>
          obtain ⟨w, j⟩ := x
          simp only at h
          obtain ⟨t1, h1⟩ := ih ha
          cases hb : run rule f (.star a) j with
          | none => simp [hb] at h
          | some y =>
            rw [hb] at h
            cases y with
            | none => simp at h
            | some y =>
              obtain ⟨u, k⟩ := y
              obtain ⟨t2, h2⟩ := ih hb
              have : k = i' := by
                split at h
                · simp_all
                · simp_all
                · rename_i e; simp at e h; obtain ⟨_, rfl⟩ := e; exact h.2
                · rename_i e; simp at e h; obtain ⟨_, rfl⟩ := e; exact h.2
              subst this
              exact ⟨t1 ++ t2, by rw [List.append_assoc, h2, h1]⟩
    | not a =>
      rw [run] at h
      split at h <;> simp at h
      obtain ⟨_, rfl⟩ := h; exact ⟨[], rfl⟩
    | nt n => rw [run] at h; exact ih h
    | cap a =>
      rw [run] at h
      cases ha : run rule f a i with
      | none => simp [ha] at h
      | some x =>
        rw [ha] at h
        cases x with
        | none => simp at h
        | some x =>
          obtain ⟨w, j⟩ := x
          simp only [Option.some.injEq, Prod.mk.injEq] at h
          obtain ⟨_, rfl⟩ := h
          exact ih ha
    | act g a =>
      rw [run] at h
      cases ha : run rule f a i with
      | none => simp [ha] at h
      | some x =>
        rw [ha] at h
        cases x with
        | none => simp at h
        | some x =>
          obtain ⟨w, j⟩ := x
          simp only [Option.some.injEq, Prod.mk.injEq] at h
          obtain ⟨_, rfl⟩ := h
          exact ih ha

theorem run_length {rule : NT → PExp} {N : NT → Bool} (hN : ∀ n, nullable N (rule n) = true → N n = true) {f : Nat} :
    ∀ {e i v i'}, run rule f e i = some (some (v, i')) →
      i'.length ≤ i.length ∧ (nullable N e = false → i'.length < i.length) := by
  induction f with
  | zero => intro e i v i' h; simp [run] at h
  | succ f ih =>
    intro e i v i' h
    cases e with
    | chr p =>
      cases i with
      | nil => simp [run] at h
      | cons b bs =>
        simp only [run] at h
        split at h
        · simp at h; obtain ⟨_, rfl⟩ := h; simp
        · simp at h
    | lit s =>
      simp only [run, Option.some.injEq, Option.map_eq_some_iff, Prod.mk.injEq] at h
      obtain ⟨r, h1, _, rfl⟩ := h
      have := matchLit_length h1
      refine ⟨by omega, fun hs => ?_⟩
      cases s with
      | nil => simp [nullable] at hs
      | cons => simp at this; omega
    | eps => simp [run] at h; obtain ⟨_, rfl⟩ := h; simp [nullable]
    | seq a b =>
      rw [run] at h
      cases ha : run rule f a i with
      | none => simp [ha] at h
      | some x =>
        rw [ha] at h
        cases x with
        | none => simp at h
        | some x =>
          obtain ⟨w, j⟩ := x
          simp only at h
          cases hb : run rule f b j with
          | none => simp [hb] at h
          | some y =>
            rw [hb] at h
            cases y with
            | none => simp at h
            | some y =>
              obtain ⟨u, k⟩ := y
              simp only [Option.some.injEq, Prod.mk.injEq] at h
              obtain ⟨_, rfl⟩ := h
              obtain ⟨h1, h2⟩ := ih ha
              obtain ⟨h3, h4⟩ := ih hb
              refine ⟨by omega, fun hn => ?_⟩
              simp only [nullable, Bool.and_eq_false_iff] at hn
              rcases hn with hn | hn
              · have := h2 hn; omega
              · have := h4 hn; omega
    | alt a b =>
      rw [run] at h
      cases ha : run rule f a i with
      | none => simp [ha] at h
      | some x =>
        rw [ha] at h
        cases x with
        | none =>
          obtain ⟨h1, h2⟩ := ih h
          refine ⟨h1, fun hn => ?_⟩
          simp only [nullable, Bool.or_eq_false_iff] at hn
          exact h2 hn.2
        | some x =>
          simp only [Option.some.injEq] at h
          subst h
          obtain ⟨h1, h2⟩ := ih ha
          refine ⟨h1, fun hn => ?_⟩
          simp only [nullable, Bool.or_eq_false_iff] at hn
          exact h2 hn.1
    | star a =>
      refine ⟨?_, by simp [nullable]⟩
      rw [run] at h
      cases ha : run rule f a i with
      | none => simp [ha] at h
      | some x =>
        rw [ha] at h
        cases x with
        | none => simp at h; obtain ⟨_, rfl⟩ := h; simp
        | some x =>
          obtain ⟨w, j⟩ := x
          simp only at h
          have h1 := (ih ha).1
          cases hb : run rule f (.star a) j with
          | none => simp [hb] at h
          | some y =>
            rw [hb] at h
            cases y with
            | none => simp at h
            | some y =>
              obtain ⟨u, k⟩ := y
              have h3 := (ih hb).1
              have : k = i' := by
                split at h
                · simp_all
                · simp_all
                · rename_i e; simp at e h; obtain ⟨_, rfl⟩ := e; exact h.2
                · rename_i e; simp at e h; obtain ⟨_, rfl⟩ := e; exact h.2
              subst this; omega
    | not a =>
      rw [run] at h
      refine ⟨?_, by simp [nullable]⟩
      split at h <;> simp at h
      obtain ⟨_, rfl⟩ := h; simp
    | nt n =>
      rw [run] at h
      obtain ⟨h1, h2⟩ := ih h
      refine ⟨h1, fun hn => h2 ?_⟩
      cases hx : nullable N (rule n) with
      | false => rfl
      | true => simp only [nullable, hN n hx] at hn; exact absurd hn (by simp)
    | cap a =>
      rw [run] at h
      cases ha : run rule f a i with
      | none => simp [ha] at h
      | some x =>
        rw [ha] at h
        cases x with
        | none => simp at h
        | some x =>
          obtain ⟨w, j⟩ := x
          simp only [Option.some.injEq, Prod.mk.injEq] at h
          obtain ⟨_, rfl⟩ := h
          exact ⟨(ih ha).1, fun hn => (ih ha).2 (by simpa [nullable] using hn)⟩
    | act g a =>
      rw [run] at h
      cases ha : run rule f a i with
      | none => simp [ha] at h
      | some x =>
        rw [ha] at h
        cases x with
        | none => simp at h
        | some x =>
          obtain ⟨w, j⟩ := x
          simp only [Option.some.injEq, Prod.mk.injEq] at h
          obtain ⟨_, rfl⟩ := h
          exact ⟨(ih ha).1, fun hn => (ih ha).2 (by simpa [nullable] using hn)⟩

theorem leftOk_top {N rank R} (hR : ∀ n, rank n < R) : ∀ e, leftOk N rank R e = true
  | .chr _ | .lit _ | .eps => rfl
  | .seq a b => by simp [leftOk, leftOk_top hR a, leftOk_top hR b]
  | .alt a b => by simp [leftOk, leftOk_top hR a, leftOk_top hR b]
  | .star a => by simp [leftOk, leftOk_top hR a]
  | .not a => by simp [leftOk, leftOk_top hR a]
  | .nt n => by simp [leftOk, hR n]
  | .cap a => by simp [leftOk, leftOk_top hR a]
  | .act _ a => by simp [leftOk, leftOk_top hR a]

theorem total {rule : NT → PExp} {N : NT → Bool} {rank : NT → Nat} {R : Nat}
    (hN : ∀ n, nullable N (rule n) = true → N n = true) (hs : ∀ n, starOk N (rule n) = true)
    (hl : ∀ n, leftOk N rank (rank n) (rule n) = true) (hR : ∀ n, rank n < R) :
    ∀ (n : Nat) (i : List Byte), i.length ≤ n → ∀ e, starOk N e = true → ∃ r, Gives rule e i r := by
  have len : ∀ {e i v i'}, Gives rule e i (some (v, i')) → i'.length ≤ i.length ∧ (nullable N e = false → i'.length < i.length) :=
    fun ⟨_, h⟩ => run_length hN h
  have stars : ∀ {a f j u k}, run rule f (.star a) j = some (some (u, k)) → ∃ l, u = .tup l := by
    intro a f j u k h
    cases f with
    | zero => simp [run] at h
    | succ f =>
      rw [run] at h
      split at h <;> try simp at h
      · exact ⟨_, h.1.symm⟩
      · split at h <;> simp at h <;> exact ⟨_, h.1.symm⟩
  intro n
  induction n using Nat.strongRecOn with
  | _ n ih =>
    intro i hi
    have key : ∀ r e, leftOk N rank r e = true → starOk N e = true → ∃ x, Gives rule e i x := by
      intro r
      induction r using Nat.strongRecOn with
      | _ r ihr =>
        intro e
        induction e with
        | chr p => intro _ _; cases i <;> exact ⟨_, 1, rfl⟩
        | lit s => intro _ _; exact ⟨_, 1, rfl⟩
        | eps => intro _ _; exact ⟨_, .eps⟩
        | seq a b iha ihb =>
          intro h1 h2
          simp only [leftOk, Bool.and_eq_true, Bool.or_eq_true, Bool.not_eq_true'] at h1
          simp only [starOk, Bool.and_eq_true] at h2
          obtain ⟨x, hx⟩ := iha h1.1 h2.1
          cases x with
          | none => exact ⟨_, hx.seqFail1⟩
          | some x =>
            obtain ⟨v, j⟩ := x
            obtain ⟨g1, g2⟩ := len hx
            have : ∃ y, Gives rule b j y := by
              by_cases hj : j.length < i.length
              · exact ih j.length (by omega) j (Nat.le_refl _) b h2.2
              · rcases h1.2 with hn | hb
                · exact absurd (g2 hn) hj
                · -- nothing consumed: the input is the same
                  have : j = i := by
                    obtain ⟨f, hf⟩ := hx
                    obtain ⟨t, ht⟩ := run_suffix hf
                    have : t = [] := by
                      have := congrArg List.length ht
                      simp at this
                      exact List.eq_nil_of_length_eq_zero (by omega)
                    subst this; simpa using ht
                  subst this
                  exact ihb hb h2.2
            obtain ⟨y, hy⟩ := this
            cases y with
            | none => exact ⟨_, hx.seqFail2 hy⟩
            | some y => exact ⟨_, hx.seq hy⟩
        | alt a b iha ihb =>
          intro h1 h2
          simp only [leftOk, Bool.and_eq_true] at h1
          simp only [starOk, Bool.and_eq_true] at h2
          obtain ⟨x, hx⟩ := iha h1.1 h2.1
          cases x with
          | none => obtain ⟨y, hy⟩ := ihb h1.2 h2.2; exact ⟨_, hx.alt2 hy⟩
          | some x => exact ⟨_, hx.alt1⟩
        | star a iha =>
          intro h1 h2
          simp only [leftOk] at h1
          have h2' := h2
          simp only [starOk, Bool.and_eq_true, Bool.not_eq_true'] at h2
          obtain ⟨x, hx⟩ := iha h1 h2.2
          cases x with
          | none => exact ⟨_, hx.starNil⟩
          | some x =>
            obtain ⟨v, j⟩ := x
            have := (len hx).2 h2.1
            obtain ⟨y, f, hy⟩ := ih j.length (by omega) j (Nat.le_refl _) (.star a) h2'
            cases y with
            | none =>
              obtain ⟨f', hx⟩ := hx
              exact ⟨none, max f f' + 1, by simp only [run, run_le (Nat.le_max_right f f') hx, run_le (Nat.le_max_left f f') hy]⟩
            | some y =>
              obtain ⟨u, k⟩ := y
              obtain ⟨l, rfl⟩ := stars hy
              exact ⟨_, hx.starCons ⟨f, hy⟩⟩
        | not a iha =>
          intro h1 h2
          obtain ⟨x, hx⟩ := iha h1 h2
          cases x with
          | none => exact ⟨_, hx.not1⟩
          | some x => exact ⟨_, hx.not2⟩
        | nt n =>
          intro h1 _
          simp only [leftOk, decide_eq_true_eq] at h1
          obtain ⟨x, hx⟩ := ihr (rank n) h1 (rule n) (hl n) (hs n)
          exact ⟨x, hx.nt⟩
        | cap a iha =>
          intro h1 h2
          obtain ⟨x, f, hx⟩ := iha h1 h2
          cases x with
          | none => exact ⟨none, f + 1, by simp only [run, hx]⟩
          | some x => exact ⟨_, f + 1, by simp only [run, hx]; rfl⟩
        | act g a iha =>
          intro h1 h2
          obtain ⟨x, hx⟩ := iha h1 h2
          cases x with
          | none => exact ⟨_, hx.actFail⟩
          | some x => exact ⟨_, hx.act⟩
    intro e he
    exact key R e (leftOk_top hR e) he


/-- The rules of the grammar that may match the empty string. -/
def nulls : NT → Bool
  | .statements | .lickItems => true
  | _ => false
/-- An order of the rules of the grammar. -/
def ranks : NT → Nat
  | .unqChar | .lick | .list | .block | .group | .tuple | .extern => 0
  | .value | .name | .closure => 1
  | .call | .loose => 2
  | .atom | .lickItem => 3
  | .expr | .lickItems => 4
  | .power => 5 | .product => 6 | .sum => 7 | .bitshift => 8 | .bitand => 9 | .bitors => 10 | .cmps => 11 | .eqs => 12
  | .sets => 13 | .stmt => 14 | .statements => 15

theorem grammar_total (i : List Byte) (e : PExp) (h : starOk nulls e = true) : ∃ r, Gives rule e i r :=
  total (N := nulls) (rank := ranks) (R := 16) (by intro n; cases n <;> decide) (by intro n; cases n <;> decide)
    (by intro n; cases n <;> decide) (by intro n; cases n <;> decide) i.length i (Nat.le_refl _) e h

end Potion.Peg
