import Verif.Proof.PegTotal
/-! Failure of a parsing expression: by the first byte, at the end of the input, by a known prefix. -/
namespace Potion.Peg
open Potion

/-- May `e` match something of an input that begins with `c`? -/
def mayStart (N : NT → Bool) (F : NT → Byte → Bool) (c : Byte) : PExp → Bool
  | .chr p => p c
  | .lit [] => false
  | .lit (d :: _) => decide (d = c)
  | .eps => false
  | .seq a b => if nullable N a then mayStart N F c a || mayStart N F c b else mayStart N F c a
  | .alt a b => mayStart N F c a || mayStart N F c b
  | .star a => mayStart N F c a
  | .not _ => false
  | .nt n => F n c
  | .cap a => mayStart N F c a
  | .act _ a => mayStart N F c a

theorem run_first {rule : NT → PExp} {N : NT → Bool} {F : NT → Byte → Bool}
    (hN : ∀ n, nullable N (rule n) = true → N n = true) (hF : ∀ n c, mayStart N F c (rule n) = true → F n c = true) {f : Nat} :
    ∀ {e c k v i'}, run rule f e (c :: k) = some (some (v, i')) → i' ≠ c :: k → mayStart N F c e = true := by
  induction f with
  | zero => intro e c k v i' h; simp [run] at h
  | succ f ih =>
    intro e c k v i' h hi
    cases e with
    | chr p =>
      simp only [run] at h
      split at h
      · simpa [mayStart]
      · simp at h
    | lit s =>
      simp only [run, Option.some.injEq, Option.map_eq_some_iff, Prod.mk.injEq] at h
      obtain ⟨r, h1, _, rfl⟩ := h
      cases s with
      | nil => simp only [matchLit, Option.some.injEq] at h1; exact absurd h1.symm hi
      | cons d s =>
        simp only [matchLit] at h1
        split at h1
        · simpa [mayStart]
        · simp at h1
    | eps => simp [run] at h; exact absurd h.2.symm hi
    | seq a b =>
      rw [run] at h
      cases ha : run rule f a (c :: k) with
      | none => simp [ha] at h
      | some x =>
        rw [ha] at h
        cases x with
        | none => simp at h
        | some x =>
          obtain ⟨w, j⟩ := x
          simp only at h
          cases hb : run rule f b j with
          | none => simp [hb] at h
          | some y =>
            rw [hb] at h
            cases y with
            | none => simp at h
            | some y =>
              obtain ⟨u, l⟩ := y
              simp only [Option.some.injEq, Prod.mk.injEq] at h
              obtain ⟨_, rfl⟩ := h
              simp only [mayStart]
              by_cases hj : j = c :: k
              · subst hj
                split
                · simp [ih hb hi]
                · rename_i hn
                  have := (run_length hN ha).2 (by simpa using hn)
                  omega
              · split <;> simp [ih ha hj]
    | alt a b =>
      rw [run] at h
      simp only [mayStart]
      cases ha : run rule f a (c :: k) with
      | none => simp [ha] at h
      | some x =>
        rw [ha] at h
        cases x with
        | none => simp [ih h hi]
        | some x => simp only [Option.some.injEq] at h; subst h; simp [ih ha hi]
    | star a =>
      rw [run] at h
      cases ha : run rule f a (c :: k) with
      | none => simp [ha] at h
      | some x =>
        rw [ha] at h
        cases x with
        | none => simp at h; exact absurd h.2.symm hi
        | some x =>
          obtain ⟨w, j⟩ := x
          simp only at h
          by_cases hj : j = c :: k
          · subst hj
            cases hb : run rule f (.star a) (c :: k) with
            | none => simp [hb] at h
            | some y =>
              rw [hb] at h
              cases y with
              | none => simp at h
              | some y =>
                obtain ⟨u, l⟩ := y
                have : l = i' := by cases u <;> simp at h <;> exact h.2
                subst this
                exact ih hb hi
          · show mayStart N F c a = true
            exact ih ha hj
    | not a =>
      rw [run] at h
      split at h <;> simp at h
      exact absurd h.2.symm hi
    | nt n => rw [run] at h; exact hF _ _ (ih h hi)
    | cap a =>
      rw [run] at h
      simp only [mayStart]
      cases ha : run rule f a (c :: k) with
      | none => simp [ha] at h
      | some x =>
        rw [ha] at h
        cases x with
        | none => simp at h
        | some x =>
          obtain ⟨w, j⟩ := x
          simp only [Option.some.injEq, Prod.mk.injEq] at h
          obtain ⟨_, rfl⟩ := h
          exact ih ha hi
    | act g a =>
      rw [run] at h
      simp only [mayStart]
      cases ha : run rule f a (c :: k) with
      | none => simp [ha] at h
      | some x =>
        rw [ha] at h
        cases x with
        | none => simp at h
        | some x =>
          obtain ⟨w, j⟩ := x
          simp only [Option.some.injEq, Prod.mk.injEq] at h
          obtain ⟨_, rfl⟩ := h
          exact ih ha hi

def between (l : List (Nat × Nat)) (c : Byte) : Bool := l.any fun r => decide (r.1 ≤ c.toNat) && decide (c.toNat ≤ r.2)
/-- First bytes of names. -/
def fName (c : Byte) : Bool := between [(65, 90), (97, 122), (95, 95), (36, 36), (64, 64), (0xC4, 0xF4)] c
/-- First bytes of values: digits `-`, quotes, `[`, `|`, names (of licks). -/
def fValue (c : Byte) : Bool := between [(48, 57), (45, 45), (39, 39), (34, 34), (91, 91), (124, 124)] c || fName c
def fCall (c : Byte) : Bool := between [(47, 47), (63, 63), (40, 40)] c || fValue c
def fExpr (c : Byte) : Bool := between [(33, 33), (126, 126), (43, 43), (58, 58)] c || fCall c
/-- First bytes of each rule. -/
def firsts : NT → Byte → Bool
  | .list, c => between [(40, 40)] c
  | .block, c => between [(58, 58)] c
  | .lick, c => between [(91, 91)] c
  | .group, c => between [(124, 124)] c
  | .closure, c => between [(40, 40), (58, 58)] c
  | .tuple, c => fName c
  | .extern, c => between [(101, 101)] c
  | .value, c => fValue c
  | .name, c => between [(47, 47), (63, 63)] c || fName c
  | .call, c => fCall c
  | .atom, c => between [(58, 58)] c || fCall c
  | .lickItem, _ | .loose, _ | .unqChar, _ | .lickItems, _ | .statements, _ => true
  | _, c => fExpr c

/-- A rule fails on an input that begins with a byte no match of it can begin with. -/
theorem fails_first {e : PExp} {c : Byte} (k : List Byte) (hs : starOk nulls e = true) (hn : nullable nulls e = false)
    (h : mayStart nulls firsts c e = false) : Gives rule e (c :: k) none := by
  obtain ⟨r, f, hr⟩ := grammar_total (c :: k) e hs
  cases r with
  | none => exact ⟨f, hr⟩
  | some x =>
    obtain ⟨v, i'⟩ := x
    have hN : ∀ n, nullable nulls (rule n) = true → nulls n = true := by intro n; cases n <;> decide
    have hF : ∀ n c, mayStart nulls firsts c (rule n) = true → firsts n c = true := by
      intro n; cases n <;> decide +kernel
    have h1 := (run_length hN hr).2 hn
    have := run_first hN hF hr (by intro e; simp [e] at h1)
    rw [h] at this; simp at this

theorem fails_nil {e : PExp} (hs : starOk nulls e = true) (hn : nullable nulls e = false) : Gives rule e [] none := by
  obtain ⟨r, f, hr⟩ := grammar_total [] e hs
  cases r with
  | none => exact ⟨f, hr⟩
  | some x =>
    obtain ⟨v, i'⟩ := x
    have hN : ∀ n, nullable nulls (rule n) = true → nulls n = true := by intro n; cases n <;> decide
    have h1 := (run_length hN hr).2 hn
    simp at h1

/-- Matching a string against a known prefix of the input: `none` if that is not enough to know. -/
def matchPre : List Byte → List Byte → Option (Option (List Byte))
  | [], i => some (some i)
  | _ :: _, [] => none
  | c :: cs, b :: bs => if c = b then matchPre cs bs else some none

/-- Parsing a known prefix of the input, without values; `none` if that is not enough to know. -/
def runPre (rule : NT → PExp) : (fuel : Nat) → PExp → List Byte → Option (Option (List Byte))
  | 0, _, _ => none
  | _+1, .chr p, i => match i with
    | [] => none
    | b :: bs => some (if p b then some bs else none)
  | _+1, .lit s, i => matchPre s i
  | _+1, .eps, i => some (some i)
  | f+1, .seq a b, i => match runPre rule f a i with
    | none => none
    | some none => some none
    | some (some i') => runPre rule f b i'
  | f+1, .alt a b, i => match runPre rule f a i with
    | none => none
    | some none => runPre rule f b i
    | some (some r) => some (some r)
  | f+1, .star a, i => match runPre rule f a i with
    | none => none
    | some none => some (some i)
    | some (some i') => runPre rule f (.star a) i'
  | f+1, .not a, i => match runPre rule f a i with
    | none => none
    | some none => some (some i)
    | some (some _) => some none
  | f+1, .nt n, i => runPre rule f (rule n) i
  | f+1, .cap a, i => runPre rule f a i
  | f+1, .act _ a, i => runPre rule f a i

theorem matchPre_sound (k : List Byte) : ∀ {s p r}, matchPre s p = some r → matchLit s (p ++ k) = r.map (· ++ k)
  | [], p, r, h => by simp only [matchPre, Option.some.injEq] at h; subst h; rfl
  | _ :: _, [], r, h => by simp [matchPre] at h
  | c :: cs, b :: bs, r, h => by
    simp only [matchPre] at h
    simp only [List.cons_append, matchLit]
    split at h
    · rename_i e; simp only [e, if_true]; exact matchPre_sound k h
    · rename_i e; simp only [e, if_false]; simp at h; subst h; rfl

theorem runPre_sound {rule : NT → PExp} (k : List Byte) {f : Nat} : ∀ {e p r}, runPre rule f e p = some r →
    ∃ x, run rule f e (p ++ k) = some x ∧ x.map (·.2) = r.map (· ++ k) := by
  induction f with
  | zero => intro e p r h; simp [runPre] at h
  | succ f ih =>
    intro e p r h
    cases e with
    | chr q =>
      cases p with
      | nil => simp [runPre] at h
      | cons b bs =>
        simp only [runPre, Option.some.injEq] at h
        subst h
        exact ⟨_, rfl, by split <;> rfl⟩
    | lit s =>
      simp only [runPre] at h
      exact ⟨_, rfl, by rw [matchPre_sound k h]; cases r <;> rfl⟩
    | eps => simp only [runPre, Option.some.injEq] at h; subst h; exact ⟨_, rfl, rfl⟩
    | seq a b =>
      rw [runPre] at h
      split at h
      · simp at h
      · rename_i e
        obtain ⟨x, hx, hy⟩ := ih e
        obtain rfl : x = none := by simpa using hy
        simp at h; subst h
        exact ⟨none, by rw [run, hx], rfl⟩
      · rename_i i' e
        obtain ⟨x, hx, hy⟩ := ih e
        obtain ⟨v, rfl⟩ : ∃ v, x = some (v, i' ++ k) := by
          cases x with
          | none => simp at hy
          | some x => obtain ⟨v, j⟩ := x; simp at hy; exact ⟨v, by rw [hy]⟩
        obtain ⟨y, hy1, hy2⟩ := ih h
        cases y with
        | none => exact ⟨none, by rw [run, hx]; simp only [hy1], hy2⟩
        | some y => obtain ⟨u, l⟩ := y; exact ⟨some (.pair v u, l), by rw [run, hx]; simp only [hy1], hy2⟩
    | alt a b =>
      rw [runPre] at h
      split at h
      · simp at h
      · rename_i e
        obtain ⟨x, hx, hy⟩ := ih e
        obtain rfl : x = none := by simpa using hy
        obtain ⟨y, hy1, hy2⟩ := ih h
        exact ⟨y, by rw [run, hx]; exact hy1, hy2⟩
      · rename_i i' e
        obtain ⟨x, hx, hy⟩ := ih e
        simp at h; subst h
        cases x with
        | none => simp at hy
        | some x => exact ⟨_, by rw [run, hx], hy⟩
    | star a =>
      rw [runPre] at h
      split at h
      · simp at h
      · rename_i e
        obtain ⟨x, hx, hy⟩ := ih e
        obtain rfl : x = none := by simpa using hy
        simp at h; subst h
        exact ⟨_, by rw [run, hx], rfl⟩
      · rename_i i' e
        obtain ⟨x, hx, hy⟩ := ih e
        obtain ⟨v, rfl⟩ : ∃ v, x = some (v, i' ++ k) := by
          cases x with
          | none => simp at hy
          | some x => obtain ⟨v, j⟩ := x; simp at hy; exact ⟨v, by rw [hy]⟩
        obtain ⟨y, hy1, hy2⟩ := ih h
        rw [run, hx]
        simp only [hy1]
        cases y with
        | none => exact ⟨_, rfl, hy2⟩
        | some y =>
          obtain ⟨u, l⟩ := y
          cases u <;> exact ⟨_, rfl, by simpa using hy2⟩
    | not a =>
      rw [runPre] at h
      split at h
      · simp at h
      · rename_i e
        obtain ⟨x, hx, hy⟩ := ih e
        obtain rfl : x = none := by simpa using hy
        simp at h; subst h
        exact ⟨_, by rw [run, hx], rfl⟩
      · rename_i i' e
        obtain ⟨x, hx, hy⟩ := ih e
        simp at h; subst h
        cases x with
        | none => simp at hy
        | some x => exact ⟨none, by rw [run, hx], rfl⟩
    | nt n => rw [runPre] at h; rw [run]; exact ih h
    | cap a =>
      rw [runPre] at h
      obtain ⟨x, hx, hy⟩ := ih h
      rw [run, hx]
      cases x with
      | none => exact ⟨_, rfl, hy⟩
      | some x => exact ⟨_, rfl, by simpa using hy⟩
    | act g a =>
      rw [runPre] at h
      obtain ⟨x, hx, hy⟩ := ih h
      rw [run, hx]
      cases x with
      | none => exact ⟨_, rfl, hy⟩
      | some x => exact ⟨_, rfl, by simpa using hy⟩

/-- `e` fails on every input that begins with `p`. -/
theorem fails_pre {rule : NT → PExp} {e p} (f : Nat) (h : runPre rule f e p = some none) (k : List Byte) : Gives rule e (p ++ k) none := by
  obtain ⟨x, hx, hy⟩ := runPre_sound k h
  obtain rfl : x = none := by simpa using hy
  exact ⟨f, hx⟩

end Potion.Peg
