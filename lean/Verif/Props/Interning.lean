import Verif.Model.Intern
import Verif.Proof.Khash
import Verif.Proof.Table
/-! # C17: equal strings are the same object -/
namespace Potion.Props
open Potion Intern

/-- The text a creation asks for. -/
def Make.text : Make → List (BitVec 8)
  | .str s => s
  | .str2 s => s
  | .cat a b => a ++ b
  | .ofBytes s => s
  | .format s => s

/-- Every constructor but `format` interns. -/
def Make.interns : Make → Prop
  | .format _ => False
  | _ => True

theorem cstr_id {s : List (BitVec 8)} (h : 0#8 ∉ s) : cstr s = s := by
  unfold cstr
  induction s with
  | nil => rfl
  | cons b s ih =>
    rw [List.takeWhile_cons, if_pos]
    · rw [ih (fun hh => h (by simp [hh]))]
    · simp; intro hb; exact h (by simp [hb])

/-- Invariant: the table is well formed, its entries are exactly NUL-free texts of objects. -/
structure Ok (st : St) : Prop where
  wf : WF luaHash st.tab
  val : ∀ k id, st.tab.Has k id → st.heap[id]? = some k

theorem lookup_spec {st : St} (ok : Ok st) {s : List (BitVec 8)} (hs : 0#8 ∉ s) :
    ∃ o, lookup st s = some o ∧ ∀ id, o = some id ↔ st.tab.Has s id := by
  unfold lookup; rw [cstr_id hs]; exact ok.wf.at_spec s

theorem heap_snoc (h : List (List (BitVec 8))) (s x : List (BitVec 8)) (id : Nat) (hx : h[id]? = some x) :
    (h ++ [s])[id]? = some x := by
  rw [List.getElem?_append_left]
  · exact hx
  · exact (List.getElem?_eq_some_iff.1 hx).1

/-- What a single interning creation does. -/
def Good (st st' : St) (s : List (BitVec 8)) (id : Nat) : Prop :=
  Ok st' ∧ (∀ k i, st.tab.Has k i → st'.tab.Has k i) ∧ (∀ (i : Nat) (x : List (BitVec 8)), st.heap[i]? = some x → st'.heap[i]? = some x) ∧
    st'.tab.Has s id

theorem addNew {st : St} (ok : Ok st) {s : List (BitVec 8)} (hs : 0#8 ∉ s) (habs : ∀ id, ¬ st.tab.Has s id) :
    ∃ st', addStr (alloc st s).1 s st.heap.length = some st' ∧ Good st st' s st.heap.length := by
  obtain ⟨t, h1, h2, h3⟩ := ok.wf.put_spec s st.heap.length
  refine ⟨{ heap := st.heap ++ [s], tab := t }, ?_, ⟨h2, ?_⟩, ?_, ?_, ?_⟩
  · unfold addStr alloc; rw [cstr_id hs]; simp only [h1]
  · intro k id hk
    rcases (h3 k id).1 hk with ⟨rfl, rfl⟩ | ⟨_, hh⟩
    · simp
    · exact heap_snoc _ _ _ _ (ok.val k id hh)
  · intro k i hk
    refine (h3 k i).2 ?_
    by_cases hks : k = s
    · subst hks; exact absurd hk (habs i)
    · exact Or.inr ⟨hks, hk⟩
  · intro i x hx; exact heap_snoc _ _ _ _ hx
  · exact (h3 _ _).2 (Or.inl ⟨rfl, rfl⟩)

theorem Good.refl {st : St} (ok : Ok st) {s : List (BitVec 8)} {id : Nat} (h : st.tab.Has s id) : Good st st s id :=
  ⟨ok, fun _ _ h => h, fun _ _ h => h, h⟩

theorem ok_alloc {st : St} (ok : Ok st) (s : List (BitVec 8)) : Ok (alloc st s).1 :=
  ⟨ok.wf, fun k id h => heap_snoc _ _ _ _ (ok.val k id h)⟩

theorem bytesString_good {st : St} (ok : Ok st) {s : List (BitVec 8)} (hs : 0#8 ∉ s) :
    ∃ st' id, bytesString st s = some (st', id) ∧ Good st st' s id := by
  obtain ⟨o, h1, h2⟩ := lookup_spec ok hs
  unfold bytesString
  rcases o with _ | id
  · obtain ⟨st', h3, h4⟩ := addNew ok hs (fun id hh => by have := (h2 id).2 hh; cases this)
    refine ⟨st', st.heap.length, ?_, h4⟩
    simp only [h1]
    simp only [alloc] at h3 ⊢
    simp only [h3]
  · exact ⟨st, id, by simp only [h1], Good.refl ok ((h2 id).1 rfl)⟩

theorem str_good {st : St} (ok : Ok st) {s : List (BitVec 8)} (hs : 0#8 ∉ s) :
    ∃ st' id, str st s = some (st', id) ∧ Good st st' s id := by
  have : str st s = bytesString st s := by unfold str bytesString; rw [cstr_id hs]
  rw [this]; exact bytesString_good ok hs

theorem str2_good {st : St} (ok : Ok st) {s : List (BitVec 8)} (hs : 0#8 ∉ s) :
    ∃ st' id, str2 st s = some (st', id) ∧ Good st st' s id := by
  obtain ⟨o, h1, h2⟩ := lookup_spec (ok_alloc ok s) hs
  unfold str2
  rcases o with _ | id
  · obtain ⟨st', h3, h4⟩ := addNew ok hs (fun id hh => by have := (h2 id).2 hh; cases this)
    refine ⟨st', st.heap.length, ?_, h4⟩
    simp only [alloc] at h1 h3 ⊢
    simp only [h1, h3]
  · refine ⟨(alloc st s).1, id, ?_, ok_alloc ok s, fun _ _ h => h, fun i x hx => heap_snoc _ _ _ _ hx, (h2 id).1 rfl⟩
    simp only [alloc] at h1 ⊢
    simp only [h1]

theorem make_good {st : St} (ok : Ok st) (m : Make) (hs : 0#8 ∉ Make.text m) (hi : Make.interns m) :
    ∃ st' id, make st m = some (st', id) ∧ Good st st' (Make.text m) id := by
  cases m with
  | str s => exact str_good ok hs
  | str2 s => exact str2_good ok hs
  | cat a b =>
    have ha : 0#8 ∉ a := fun h => hs (by simp [Make.text, h])
    have hb : 0#8 ∉ b := fun h => hs (by simp [Make.text, h])
    simp only [make, strcat, cstr_id ha, cstr_id hb, Make.text]
    exact str2_good ok hs
  | ofBytes s => exact bytesString_good ok hs
  | format s => exact absurd hi id

theorem format_ok {st : St} (ok : Ok st) (s : List (BitVec 8)) (hs : 0#8 ∉ s) :
    ∃ st' id, make st (.format s) = some (st', id) ∧ Ok st' ∧ (∀ k i, st.tab.Has k i → st'.tab.Has k i) ∧
      (∀ (i : Nat) (x : List (BitVec 8)), st.heap[i]? = some x → st'.heap[i]? = some x) ∧ st'.heap[id]? = some s :=
  ⟨(alloc st (cstr s)).1, st.heap.length, rfl, ok_alloc ok _, fun _ _ h => h, fun i x hx => heap_snoc _ _ _ _ hx,
    by simp [alloc, cstr_id hs]⟩

theorem history_spec (ms : List Make) : ∀ {st : St}, Ok st → (∀ m ∈ ms, 0#8 ∉ Make.text m) →
    ∃ st' ids, history st ms = some (st', ids) ∧ Ok st' ∧ ids.length = ms.length ∧
      (∀ k i, st.tab.Has k i → st'.tab.Has k i) ∧
      (∀ (i : Nat) (x : List (BitVec 8)), st.heap[i]? = some x → st'.heap[i]? = some x) ∧
      ∀ (n : Nat) (m : Make) (id : Nat), ms[n]? = some m → ids[n]? = some id →
        st'.heap[id]? = some (Make.text m) ∧ (Make.interns m → st'.tab.Has (Make.text m) id) := by
  induction ms with
  | nil => intro st ok _; exact ⟨st, [], rfl, ok, rfl, fun _ _ h => h, fun _ _ h => h, by simp⟩
  | cons m ms ih =>
    intro st ok hz
    have step : ∃ st1 id, make st m = some (st1, id) ∧ Ok st1 ∧ (∀ k i, st.tab.Has k i → st1.tab.Has k i) ∧
        (∀ (i : Nat) (x : List (BitVec 8)), st.heap[i]? = some x → st1.heap[i]? = some x) ∧
        st1.heap[id]? = some (Make.text m) ∧ (Make.interns m → st1.tab.Has (Make.text m) id) := by
      by_cases hi : Make.interns m
      · obtain ⟨st1, id, a, b, c, d, e⟩ := make_good ok m (hz m (by simp)) hi
        exact ⟨st1, id, a, b, c, d, b.val _ _ e, fun _ => e⟩
      · cases m with
        | format s =>
          obtain ⟨st1, id, a, b, c, d, e⟩ := format_ok ok s (hz (.format s) (by simp))
          exact ⟨st1, id, a, b, c, d, e, fun h => absurd h hi⟩
        | _ => exact absurd trivial hi
    obtain ⟨st1, id, a, b, c, d, e, f⟩ := step
    obtain ⟨st2, ids, a2, b2, c2, d2, e2, f2⟩ := ih b (fun x hx => hz x (by simp [hx]))
    refine ⟨st2, id :: ids, by simp only [history, a, a2], b2, by simp [c2], fun k i h => d2 k i (c k i h),
      fun i x h => e2 i x (d i x h), ?_⟩
    intro n m' id' hn hid
    rcases n with _ | n
    · simp only [List.getElem?_cons_zero, Option.some.injEq] at hn hid
      subst hn; subst hid
      exact ⟨e2 _ _ e, fun h => d2 _ _ (f h)⟩
    · simp only [List.getElem?_cons_succ] at hn hid
      exact f2 n m' id' hn hid

/-- C17: take any history of NUL-free string creations, by any mix of constructors. Every result has exactly the contents
it was created with, and two results of interning constructors are the same object if and only if their contents are
equal – whatever was created in between and however the table grew. Missing: `format` does not intern (see the
refutations), and collections are the subject of C34. -/
theorem C17_interning_partial (ms : List Make) (hz : ∀ m ∈ ms, 0#8 ∉ Make.text m) :
    ∃ st ids, history St.new ms = some (st, ids) ∧ ids.length = ms.length ∧
      (∀ (n : Nat) (m : Make) (id : Nat), ms[n]? = some m → ids[n]? = some id → st.heap[id]? = some (Make.text m)) ∧
      (∀ (n₁ n₂ : Nat) (m₁ m₂ : Make) (id₁ id₂ : Nat), ms[n₁]? = some m₁ → ms[n₂]? = some m₂ → ids[n₁]? = some id₁ → ids[n₂]? = some id₂ →
        Make.interns m₁ → Make.interns m₂ → (id₁ = id₂ ↔ Make.text m₁ = Make.text m₂)) := by
  have ok0 : Ok St.new := ⟨WF.new _, by intro k id ⟨i, h⟩; simp [St.new, KH.new] at h⟩
  obtain ⟨st, ids, h1, h2, h3, _, _, h6⟩ := history_spec ms ok0 hz
  refine ⟨st, ids, h1, h3, fun n m id a b => (h6 n m id a b).1, ?_⟩
  intro n₁ n₂ m₁ m₂ id₁ id₂ a₁ a₂ b₁ b₂ i₁ i₂
  obtain ⟨c₁, d₁⟩ := h6 _ _ _ a₁ b₁
  obtain ⟨c₂, d₂⟩ := h6 _ _ _ a₂ b₂
  constructor
  · rintro rfl
    rw [c₁] at c₂; exact Option.some.inj c₂
  · intro he
    have d₁ := d₁ i₁
    rw [he] at d₁
    exact h2.wf.has_unique d₁ (d₂ i₂)

/-- A history with all five constructors. -/
example : ∀ m ∈ [Make.str [0x61], Make.str2 [0x61, 0x62], Make.cat [0x61] [0x62], Make.ofBytes [0x61], Make.format [0x61]],
    0#8 ∉ Make.text m := by decide

/-- Contents of the heap and resulting objects of a history. -/
def outcome (ms : List Make) : Option (List (List (BitVec 8)) × List Nat) :=
  (history St.new ms).map fun r => (r.1.heap, r.2)

/-- C17 (refuted): a formatted string is a new object even if an equal string exists. -/
theorem C17_format_refuted : outcome [.str [0x61], .format [0x61]] = some ([[0x61], [0x61]], [0, 1]) := by
  decide +kernel

/-- C17 (refuted): with an embedded NUL the contents are not kept: after "a" has been created, creating "a", NUL, "b"
(for example by a literal with `\u0000`) returns the string "a"; and if it is created first, a later "a" is the
three-byte string. -/
theorem C17_nul_refuted :
    outcome [.str [0x61], .ofBytes [0x61, 0, 0x62]] = some ([[0x61]], [0, 0]) ∧
    outcome [.ofBytes [0x61, 0, 0x62], .str [0x61]] = some ([[0x61, 0, 0x62]], [0, 0]) := by
  decide +kernel

end Potion.Props
