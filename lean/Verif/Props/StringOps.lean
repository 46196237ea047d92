import Verif.Props.Interning
import Verif.Proof.StrCmp
/-! # C55: `+` and `cmp` of strings -/
namespace Potion.Props
open Potion Intern Potion.Spec Potion.Str

/-- The text of a string expression: `+` is concatenation. -/
def Expr.text : Expr → List (BitVec 8)
  | .lit m => Make.text m
  | .add a b => Expr.text a ++ Expr.text b

/-- Every expression but a lone `format` gives an interned string. -/
def Expr.interns : Expr → Prop
  | .lit m => Make.interns m
  | .add _ _ => True

theorem eval_spec (e : Expr) : ∀ {st : St}, Ok st → 0#8 ∉ Expr.text e →
    ∃ st' id, eval st e = some (st', id) ∧ Ok st' ∧ (∀ k i, st.tab.Has k i → st'.tab.Has k i) ∧
      (∀ (i : Nat) (x : List (BitVec 8)), st.heap[i]? = some x → st'.heap[i]? = some x) ∧
      st'.heap[id]? = some (Expr.text e) ∧ (Expr.interns e → st'.tab.Has (Expr.text e) id) := by
  induction e with
  | lit m =>
    intro st ok hz
    by_cases hi : Make.interns m
    · obtain ⟨st1, id, a, b, c, d, e⟩ := make_good ok m hz hi
      exact ⟨st1, id, a, b, c, d, b.val _ _ e, fun _ => e⟩
    · cases m with
      | format s =>
        obtain ⟨st1, id, a, b, c, d, e⟩ := format_ok ok s hz
        exact ⟨st1, id, a, b, c, d, e, fun h => absurd h hi⟩
      | _ => exact absurd trivial hi
  | add a b iha ihb =>
    intro st ok hz
    have hz' : 0#8 ∉ Expr.text a ++ Expr.text b := hz
    obtain ⟨st1, x, h1, ok1, g1, k1, c1, _⟩ := iha ok (fun h => hz' (by simp [h]))
    obtain ⟨st2, y, h2, ok2, g2, k2, c2, _⟩ := ihb ok1 (fun h => hz' (by simp [h]))
    obtain ⟨st3, z, h3, ok3, g3, k3, c3⟩ := str2_good ok2 hz'
    refine ⟨st3, z, ?_, ok3, fun k i h => g3 _ _ (g2 _ _ (g1 _ _ h)), fun i v h => k3 _ _ (k2 _ _ (k1 _ _ h)),
      ok3.val _ _ c3, fun _ => c3⟩
    have hx : st2.heap[x]? = some (Expr.text a) := k2 _ _ c1
    simp only [eval, h1, h2, Option.bind_eq_bind, Option.bind_some, strAdd, hx, c2]
    exact h3

theorem evals_spec (es : List Expr) : ∀ {st : St}, Ok st → (∀ e ∈ es, 0#8 ∉ Expr.text e) →
    ∃ st' ids, evals st es = some (st', ids) ∧ Ok st' ∧ ids.length = es.length ∧
      (∀ k i, st.tab.Has k i → st'.tab.Has k i) ∧
      (∀ (i : Nat) (x : List (BitVec 8)), st.heap[i]? = some x → st'.heap[i]? = some x) ∧
      ∀ (n : Nat) (e : Expr) (id : Nat), es[n]? = some e → ids[n]? = some id →
        st'.heap[id]? = some (Expr.text e) ∧ (Expr.interns e → st'.tab.Has (Expr.text e) id) := by
  induction es with
  | nil => intro st ok _; exact ⟨st, [], rfl, ok, rfl, fun _ _ h => h, fun _ _ h => h, by simp⟩
  | cons e es ih =>
    intro st ok hz
    obtain ⟨st1, id, a, b, c, d, x, f⟩ := eval_spec e ok (hz e (by simp))
    obtain ⟨st2, ids, a2, b2, c2, d2, e2, f2⟩ := ih b (fun x hx => hz x (by simp [hx]))
    refine ⟨st2, id :: ids, ?_, b2, by simp [c2], fun k i h => d2 k i (c k i h),
      fun i v h => e2 i v (d i v h), ?_⟩
    · simp only [evals, a, a2, Option.bind_eq_bind, Option.bind_some]; rfl
    · intro n e' id' hn hid
      rcases n with _ | n
      · simp only [List.getElem?_cons_zero, Option.some.injEq] at hn hid
        subst hn; subst hid
        exact ⟨e2 _ _ x, fun h => d2 _ _ (f h)⟩
      · simp only [List.getElem?_cons_succ] at hn hid
        exact f2 n e' id' hn hid

/-- C55: evaluate any sequence of string expressions – literals, identifiers, slices, conversions and sums, nested in any
way – over NUL-free texts, from the interpreter's start. Every result has the concatenation of its parts as contents,
and keeps it; and two results are the same object exactly when their texts are equal, so that
`(a + b) + c` and `a + (b + c)` are one object. (A bare `format` is never interned, see C17.) -/
theorem C55_add (es : List Expr) (hz : ∀ e ∈ es, 0#8 ∉ Expr.text e) :
    ∃ st ids, evals St.new es = some (st, ids) ∧ ids.length = es.length ∧
      (∀ (n : Nat) (e : Expr) (id : Nat), es[n]? = some e → ids[n]? = some id → st.heap[id]? = some (Expr.text e)) ∧
      (∀ (n₁ n₂ : Nat) (e₁ e₂ : Expr) (id₁ id₂ : Nat), es[n₁]? = some e₁ → es[n₂]? = some e₂ → ids[n₁]? = some id₁ →
        ids[n₂]? = some id₂ → Expr.interns e₁ → Expr.interns e₂ → (id₁ = id₂ ↔ Expr.text e₁ = Expr.text e₂)) := by
  have ok0 : Ok St.new := ⟨WF.new _, by intro k id ⟨i, h⟩; simp [St.new, KH.new] at h⟩
  obtain ⟨st, ids, h1, h2, h3, _, _, h6⟩ := evals_spec es ok0 hz
  refine ⟨st, ids, h1, h3, fun n m id a b => (h6 n m id a b).1, ?_⟩
  intro n₁ n₂ m₁ m₂ id₁ id₂ a₁ a₂ b₁ b₂ i₁ i₂
  obtain ⟨c₁, d₁⟩ := h6 _ _ _ a₁ b₁
  obtain ⟨c₂, d₂⟩ := h6 _ _ _ a₂ b₂
  constructor
  · rintro rfl
    rw [c₁] at c₂; exact Option.some.inj c₂
  · intro he
    have d₁ := d₁ i₁
    rw [he] at d₁
    exact h2.wf.has_unique d₁ (d₂ i₂)

/-- `("a" + "b") + "c"`, then `"a" + ("b" + "c")`, then `"abc"`: three times the same object. -/
example :
    let a := Expr.lit (.ofBytes [0x61]); let b := Expr.lit (.ofBytes [0x62]); let c := Expr.lit (.ofBytes [0x63])
    let es := [Expr.add (.add a b) c, .add a (.add b c), .lit (.ofBytes [0x61, 0x62, 0x63])]
    (∀ e ∈ es, 0#8 ∉ Expr.text e) ∧ (evals St.new es).map (·.2) = some [4, 4, 4] := by
  decide +kernel

/-- C55 (refuted for embedded NULs): once "a" exists, `"a" + "\\u0000"` is "a" – the NUL is lost and the length is not
the sum of the lengths. -/
theorem C55_add_nul_refuted :
    (evals St.new [.lit (.ofBytes [0x61]), .add (.lit (.ofBytes [0x61])) (.lit (.ofBytes [0]))]).map
      (fun r => r.2.map fun i => r.1.heap[i]?) = some [some [0x61], some [0x61]] := by
  decide +kernel

/-- C55: `cmp` of two strings has the sign of the lexicographic comparison of their bytes (as unsigned numbers; a proper
prefix comes first). The number returned depends on the contents only: not on the addresses and not on the bytes
around the two strings. (`fuel`: any bound larger than the number of bytes compared.) -/
theorem C55_cmp (s t : List (BitVec 8)) : ∃ r : Int,
    (∀ (mem : Nat → BitVec 8) (p q fuel : Nat), HoldsAt mem p s → HoldsAt mem q t → min s.length t.length < fuel →
      strCmp mem fuel p q = some r) ∧
    ((∀ b ∈ s, b ≠ 0#8) → (∀ b ∈ t, b ≠ 0#8) →
      r.sign = lexCmp (s.map fun b => (b.toNat : Int)) (t.map fun b => (b.toNat : Int))) :=
  ⟨diff s t, fun mem p q fuel hp hq hf => strcmpLoop_diff mem s t p q fuel hp hq hf, diff_sign s t⟩

/-- C55: on UTF-8 texts this is the order of the code points. -/
theorem C55_cmp_text (cs ds : List Nat) (hc : ∀ c ∈ cs, Scalar c) (hd : ∀ d ∈ ds, Scalar d) (s t : List (BitVec 8))
    (hs : s.map (·.toNat) = cs.flatMap utf8) (ht : t.map (·.toNat) = ds.flatMap utf8)
    (mem : Nat → BitVec 8) (p q fuel : Nat) (hp : HoldsAt mem p s) (hq : HoldsAt mem q t)
    (hf : min s.length t.length < fuel) :
    ∃ r, strCmp mem fuel p q = some r ∧ r.sign = lexCmp (cs.map Int.ofNat) (ds.map Int.ofNat) := by
  refine ⟨diff s t, strcmpLoop_diff mem s t p q fuel hp hq hf, ?_⟩
  have conv : ∀ (l : List (BitVec 8)) (es : List Nat), l.map (·.toNat) = es.flatMap utf8 →
      nums l = es.flatMap enc := by
    intro l es h
    have : nums l = (l.map (·.toNat)).map Int.ofNat := by simp [nums]
    rw [this, h, List.map_flatMap]; rfl
  have le : ∀ c, Scalar c → c ≤ 0x10FFFF := by intro c h; unfold Scalar at h; omega
  rw [diff_sign s t hp.2.2 hq.2.2, conv s cs hs, conv t ds ht,
    lexCmp_enc cs ds (fun c h => le c (hc c h)) (fun d h => le d (hd d h))]

/-- C55: `cmp` is a total order on strings, and 0 exactly for equal texts – by C55_add, exactly for the same object. -/
theorem C55_cmp_order (s t u : List (BitVec 8)) (mem : Nat → BitVec 8) (p q r fuel : Nat) (hp : HoldsAt mem p s)
    (hq : HoldsAt mem q t) (hr : HoldsAt mem r u) (hf : s.length + t.length < fuel) :
    ∃ st ts tu su : Int, strCmp mem fuel p q = some st ∧ strCmp mem fuel q p = some ts ∧
      strCmp mem fuel q r = some tu ∧ strCmp mem fuel p r = some su ∧
      (st = 0 ↔ s = t) ∧ (st < 0 ↔ 0 < ts) ∧ (st ≤ 0 → tu ≤ 0 → su ≤ 0) := by
  refine ⟨diff s t, diff t s, diff t u, diff s u, strcmpLoop_diff _ _ _ _ _ _ hp hq (by omega),
    strcmpLoop_diff _ _ _ _ _ _ hq hp (by omega), strcmpLoop_diff _ _ _ _ _ _ hq hr (by omega),
    strcmpLoop_diff _ _ _ _ _ _ hp hr (by omega), ?_, ?_, ?_⟩
  · rw [← Int.sign_eq_zero_iff_zero, diff_sign s t hp.2.2 hq.2.2]
    constructor
    · intro h
      have := lexCmp_eq _ _ h
      exact List.map_injective_iff.2 (fun a b hab => BitVec.eq_of_toNat_eq (by simpa using hab)) this
    · rintro rfl; exact lexCmp_self _
  · have h1 := diff_sign s t hp.2.2 hq.2.2
    have h2 := diff_sign t s hq.2.2 hp.2.2
    rw [lexCmp_anti, ← h1] at h2
    rw [← Int.sign_eq_neg_one_iff_neg, ← Int.sign_eq_one_iff_pos]
    omega
  · intro h1 h2
    have e1 := diff_sign s t hp.2.2 hq.2.2
    have e2 := diff_sign t u hq.2.2 hr.2.2
    have e3 := diff_sign s u hp.2.2 hr.2.2
    have le : ∀ x : Int, x ≤ 0 ↔ x.sign ≤ 0 := by
      intro x
      rcases Int.lt_trichotomy x 0 with h | h | h
      · rw [Int.sign_eq_neg_one_of_neg h]; omega
      · subst h; simp
      · rw [Int.sign_eq_one_of_pos h]; omega
    rw [le, e1] at h1
    rw [le, e2] at h2
    rw [le, e3]
    exact lexCmp_le_trans _ _ _ h1 h2

/-- "aé" and "a€" in one memory: `cmp` is negative. -/
example : let mem : Nat → BitVec 8 := fun i => ([0x61,0xC3,0xA9,0,7,0x61,0xE2,0x82,0xAC,0] : List (BitVec 8)).getD i 9
    HoldsAt mem 0 [0x61,0xC3,0xA9] ∧ HoldsAt mem 5 [0x61,0xE2,0x82,0xAC] ∧ strCmp mem 5 0 5 = some (-31) ∧
    [0x61,0xC3,0xA9] = [0x61,0xE9].flatMap utf8 ∧ [0x61,0xE2,0x82,0xAC] = [0x61,0x20AC].flatMap utf8 := by
  refine ⟨⟨by decide, by decide, by decide⟩, ⟨by decide, by decide, by decide⟩, by decide, by decide, by decide⟩

end Potion.Props
