import Verif.Proof.Tuple
import Verif.Props.Tables
/-! Properties C10-C13, C41: lists as sequences. -/
namespace Potion.Props
open Potion Spec
variable {α : Type}

/-! ### C10 -/

/-- C10 (for lists with non-zero capacity): any history of push, unshift, pop and shift that never pops or shifts an
empty list, started from a fresh list or any list whose block is not empty, completes without a write outside the
block, returns the elements a sequence would return and leaves the sequence's contents — whatever words `g` lie outside
the block. Missing: lists of capacity zero and pop/shift on an empty list, see the refutations below. -/
theorem C10_deque_partial (nil : α) (g : Nat → Nat → α) (t : Tup α) (hok : t.len ≤ t.mem.length) (hcap : 0 < t.mem.length)
    (ops : List (Tup.Op α)) (l : List α) (os : List (Option α))
    (hspec : seqRun t.elems (ops.map Tup.Op.spec) = some (l, os)) :
    ∃ t', t.run nil g ops = some (t', os) ∧ t'.elems = l ∧ t'.len = l.length ∧ t'.len ≤ t'.mem.length := by
  obtain ⟨t', h1, h2, h3⟩ := Tup.run_spec nil g ops ⟨hok, hcap⟩ hspec
  refine ⟨t', h1, h3, ?_, h2.1⟩
  rw [← h3, Tup.elems_length h2.1]

/-- C10: in particular from the literal `()`. -/
theorem C10_deque_from_empty (nil : α) (g : Nat → Nat → α) (ops : List (Tup.Op α)) (l : List α) (os : List (Option α))
    (hspec : seqRun [] (ops.map Tup.Op.spec) = some (l, os)) :
    ∃ t', (Tup.empty nil).run nil g ops = some (t', os) ∧ t'.elems = l ∧ t'.len = l.length := by
  obtain ⟨t', h1, h2, h3, _⟩ := C10_deque_partial nil g (Tup.empty nil) (by simp [Tup.empty]) (by simp [Tup.empty]) ops l os
    (by simpa [Tup.empty, Tup.elems] using hspec)
  exact ⟨t', h1, h2, h3⟩

example : seqRun ([] : List Nat) (([.push 1, .push 2, .unshift 0, .push 3, .push 4, .shift, .pop] : List (Tup.Op Nat)).map Tup.Op.spec)
    = some ([1, 2, 3], [none, none, none, none, none, some 0, some 4]) := by decide

/-- C10 (finding): pushing on a list with an empty block — `list(0)`, a clone of an empty list, the keys of an empty
table — writes outside the block, because the capacity is "grown" to `2 * 0`. -/
theorem C10_push_zero_capacity_refuted (nil v : α) :
    (Tup.withSize nil 0).push nil v = none ∧ (Tup.empty nil).clone.push nil v = none := by
  constructor <;> rfl

/-- C10 (finding): pop and shift on an empty list have no defined result (the length wraps to 2^32-1). -/
theorem C10_pop_empty_refuted (g : Nat → α) (t : Tup α) (h : t.elems = []) (hok : t.len ≤ t.mem.length) :
    t.pop g = none ∧ t.shift g = none := by
  have : t.len = 0 := by rw [← Tup.elems_length hok, h]; rfl
  simp [Tup.pop, Tup.shift, this]

example : (Tup.empty 0).elems = [] ∧ (Tup.empty 0).len ≤ (Tup.empty 0).mem.length := by decide

/-- C10 (finding): `shift` on a full block reads one word past it (the word is discarded). -/
theorem C10_shift_overread (t : Tup α) : t.shiftOverread ↔ t.mem.length ≤ t.len := by
  unfold Tup.shiftOverread; omega

/-! ### C11 -/

/-- C11: `at(i)` is the element counted from the front or, for negative `i`, from the back, and nil past the end.
Missing: indices below `-length`, where the code reads before the list (`C11_at_below_refuted`). -/
theorem C11_at_partial (nil : α) (t : Tup α) (hok : t.len ≤ t.mem.length) (i : Int) (hi : -(t.len : Int) ≤ i) :
    t.at' nil i = some ((nth t.elems i).getD nil) := by
  have hl := Tup.elems_length hok
  have get : ∀ k : Nat, k < t.len → t.mem[k]? = some ((t.elems[k]?).getD nil) := by
    intro k hk
    unfold Tup.elems
    rw [List.getElem?_take, if_pos hk, List.getElem?_eq_getElem (by omega)]; rfl
  unfold Tup.at' nth
  simp only [hl]
  by_cases h0 : 0 ≤ i
  · have hn : ¬ i < 0 := by omega
    simp only [if_neg hn, if_pos h0]
    by_cases h1 : i ≥ t.len
    · rw [if_pos h1, List.getElem?_eq_none (by omega)]; rfl
    · rw [if_neg h1, get _ (by omega)]
  · have hn : i < 0 := by omega
    simp only [if_pos hn, if_neg h0, if_pos hi]
    rw [if_neg (by omega), if_neg (by omega), get _ (by omega)]

example : Tup.at' 0 ⟨[10, 20, 30], 3⟩ (-1) = some 30 ∧ Tup.at' 0 ⟨[10, 20, 30], 3⟩ 3 = some 0 := by decide

/-- C11 (finding): below `-length` the access leaves the list, for reading and for writing. -/
theorem C11_at_below_refuted (nil v : α) (hash : PN → Nat) (t : Tup α) (i : Int) (hi : i < -(t.len : Int)) :
    t.at' nil i = none ∧ t.put nil hash i v = none := by
  unfold Tup.at' Tup.put
  have hn : i < 0 := by omega
  simp only [if_pos hn]
  refine ⟨by rw [if_neg (by omega), if_pos (by omega)], by rw [if_pos (by omega), if_pos (by omega)]⟩

example : (-4 : Int) < -((⟨[1,2,3], 3⟩ : Tup Nat).len : Int) := by decide

/-- C11: `put(i, v)` at an existing position (either sign) changes exactly that element and nothing else. -/
theorem C11_put_inside (nil v : α) (hash : PN → Nat) (t : Tup α) (hok : t.len ≤ t.mem.length) (i : Int)
    (hlo : -(t.len : Int) ≤ i) (hhi : i < t.len) :
    ∃ t', t.put nil hash i v = some (.tuple t') ∧ t'.len = t.len ∧ t'.mem.length = t.mem.length ∧
      t'.elems = t.elems.set (if i < 0 then i + t.len else i).toNat v := by
  unfold Tup.put
  simp only
  rw [if_pos (by split <;> omega), if_neg (by split <;> omega)]
  have : (if i < 0 then i + (t.len : Int) else i).toNat < t.mem.length := by split <;> omega
  refine ⟨{ t with mem := t.mem.set (if i < 0 then i + (t.len : Int) else i).toNat v }, ?_, rfl, by simp, ?_⟩
  · simp only [Tup.wr, if_pos this]
  · unfold Tup.elems; simp only [List.take_set]

example : -((⟨[1,2,3], 3⟩ : Tup Nat).len : Int) ≤ -2 ∧ (-2 : Int) < (⟨[1,2,3], 3⟩ : Tup Nat).len := by decide

/-- C11/C10: `put(length, v)` appends. -/
theorem C11_put_at_end (nil v : α) (hash : PN → Nat) (t : Tup α) (hok : t.len ≤ t.mem.length) (hcap : 0 < t.mem.length) :
    ∃ t', t.put nil hash t.len v = some (.tuple t') ∧ t'.elems = t.elems ++ [v] := by
  obtain ⟨t', h1, _, h3⟩ := Tup.push_spec nil ⟨hok, hcap⟩ v
  refine ⟨t', ?_, h3⟩
  unfold Tup.put
  simp only
  rw [if_neg (by omega : ¬ (t.len : Int) < 0), if_neg (by omega), if_pos rfl, h1]

example : (⟨[1,2], 2⟩ : Tup Nat).len ≤ 2 ∧ 0 < (⟨[1,2], 2⟩ : Tup Nat).mem.length := by decide

/-- C40: assignment beyond the end through the list's own `put` converts it to a table with the list's elements under
their indices and the new value under its key. -/
theorem C40_list_put_beyond (nil v : α) (hash : PN → Nat) (t : Tup α) (hok : t.len ≤ t.mem.length) (i : Int)
    (hi : (t.len : Int) < i) (h62 : i < 2^62) :
    ∃ h, t.put nil hash i v = some (.table h) ∧ h.at hash (pnNum i) = some (some v) ∧
      ∀ k : Nat, k < 2^62 → (k : Int) ≠ i → h.at hash (pnNum k) = some (t.elems[k]?) := by
  have hl := Tup.elems_length hok
  obtain ⟨h, h', hc, hp, h1, h2⟩ := C40_put_past_end hash t.elems (by omega) (pnNum i) v
  refine ⟨h', ?_, h1, ?_⟩
  · unfold Tup.put
    simp only
    rw [if_neg (by omega : ¬ i < 0), if_neg (by omega), if_neg (by omega), hc]
    simp only [hp]
  · intro k hk hne
    apply h2 k hk
    intro he
    apply hne
    have e1 : pnInt (pnNum (k : Int)) = k := pnInt_pnNum_of_fits (by unfold Fits63; omega)
    have e2 : pnInt (pnNum i) = i := pnInt_pnNum_of_fits (by unfold Fits63; omega)
    rw [he, e2] at e1; exact e1.symm

example : ((⟨[1,2], 2⟩ : Tup Nat).len : Int) < 5 := by decide

/-! ### C12 -/

/-- C12: with both positions (after counting negative ones from the end) inside the list, `slice(start, end)` is the
run of elements between them inclusive, whichever order they are given in. Missing: positions outside the list — an end
past the last element makes the copy read beyond the list (`C12_slice_overread_refuted`), a start below `-length` before
it. -/
theorem C12_slice_partial (g : Nat → α) (t : Tup α) (hok : t.len ≤ t.mem.length) (s e : Int) (a b : Nat)
    (ha : a < t.len) (hb : b < t.len) (hs : s = a ∨ s = (a : Int) - t.len) (he : e = b ∨ e = (b : Int) - t.len) :
    t.slice g s (some e) = some (some ((t.elems.drop (min a b)).take (max a b - min a b + 1))) := by
  have hsa : (if s < 0 then (t.len : Int) + s else s) = a := by split <;> omega
  have heb : (if e < 0 then (t.len : Int) + e else e) = b := by split <;> omega
  unfold Tup.slice
  simp only [hsa, heb]
  have hsl : ∀ lo n : Nat, lo + n ≤ t.len →
      (List.range n).map (fun k => Tup.rd g t.mem (lo + k)) = (t.elems.drop lo).take n := by
    intro lo n h
    rw [Tup.range_rd g t.mem lo n (by omega)]
    unfold Tup.elems
    rw [List.drop_take, List.take_take]
    congr 1; omega
  by_cases hab : b < a
  · have hc : (b : Int) - a < 0 := by omega
    simp only [if_pos hc]
    rw [if_neg (by omega : ¬ (a : Int) - b + 1 > t.len), if_neg (by omega), if_neg (by omega)]
    have e1 : ((a : Int) - b + 1).toNat = max a b - min a b + 1 := by omega
    have e2 : ((b : Int)).toNat = min a b := by omega
    rw [e1, e2, hsl _ _ (by omega)]
  · have hc : ¬ (b : Int) - a < 0 := by omega
    simp only [if_neg hc]
    rw [if_neg (by omega : ¬ (b : Int) - a + 1 > t.len), if_neg (by omega), if_neg (by omega)]
    have e1 : ((b : Int) - a + 1).toNat = max a b - min a b + 1 := by omega
    have e2 : ((a : Int)).toNat = min a b := by omega
    rw [e1, e2, hsl _ _ (by omega)]

example : Tup.slice (fun _ => 0) ⟨[10, 20, 30, 40], 4⟩ (-1) (some 1) = some (some [20, 30, 40]) := by decide

/-- C12: without an end, `slice(start)` is the rest of the list from that position; at or past the end it is nil. -/
theorem C12_slice_from (g : Nat → α) (t : Tup α) (hok : t.len ≤ t.mem.length) (s : Int) (hs : -(t.len : Int) ≤ s) :
    t.slice g s none = some (if (if s < 0 then t.len + s else s) ≥ t.len then none
      else some (t.elems.drop (if s < 0 then t.len + s else s).toNat)) := by
  unfold Tup.slice
  simp only
  by_cases h : (if s < 0 then (t.len : Int) + s else s) ≥ t.len
  · rw [if_pos (Or.inr h), if_pos h]
  · rw [if_neg h, if_neg (by split at h <;> omega), if_neg (by split at h <;> omega)]
    have hlo : (if s < 0 then (t.len : Int) + s else s) ≥ 0 := by split <;> omega
    obtain ⟨i, hi⟩ : ∃ i : Nat, (if s < 0 then (t.len : Int) + s else s) = i := ⟨_, (Int.toNat_of_nonneg hlo).symm⟩
    rw [hi] at h ⊢
    have e1 : ((t.len : Int) - i).toNat = t.len - i := by omega
    simp only [e1, Int.toNat_natCast]
    rw [Tup.range_rd g t.mem i _ (by omega)]
    unfold Tup.elems
    rw [List.drop_take]

example : -((⟨[1,2,3], 3⟩ : Tup Nat).len : Int) ≤ -2 := by decide

/-- C12 (finding): `(1,2,3) slice(1, 5)` on a full block returns three elements, the last being whatever word lies
beyond the list. -/
theorem C12_slice_overread_refuted (g : Nat → Nat) :
    Tup.slice g ⟨[1, 2, 3], 3⟩ 1 (some 5) = some (some [2, 3, g 3]) := by
  simp [Tup.slice, Tup.rd, List.range_succ]

/-- C12 (finding): a start below `-length` copies from before the list. -/
theorem C12_slice_underread_refuted (g : Nat → α) (t : Tup α) (s : Int) (hs : s < -(t.len : Int)) (h0 : t.len ≠ 0) :
    t.slice g s none = none := by
  unfold Tup.slice
  have hn : s < 0 := by omega
  simp only [if_pos hn]
  rw [if_neg (by omega), if_pos (by omega)]

example : (-4 : Int) < -((⟨[1,2,3], 3⟩ : Tup Nat).len : Int) ∧ (⟨[1,2,3], 3⟩ : Tup Nat).len ≠ 0 := by decide

/-! ### C13 -/

/-- C13: `delete(i)` removes exactly element `i` in place, and `remove(i)` gives a copy without it, for every existing
index (up to 2^32 elements), whatever word lies beyond the block. Missing: indices outside the list
(`C13_delete_outside_refuted`). -/
theorem C13_delete_partial (g : Nat → α) (t : Tup α) (hok : t.len ≤ t.mem.length) (i : Nat) (hi : i < t.len) (h32 : i < 2^32) :
    (∃ t', t.delete g i = some t' ∧ t'.elems = t.elems.eraseIdx i ∧ t'.len ≤ t'.mem.length) ∧
    (∃ t', t.remove g i = some t' ∧ t'.elems = t.elems.eraseIdx i ∧ t'.len ≤ t'.mem.length) := by
  constructor
  · obtain ⟨t', h1, h2, h3⟩ := Tup.delete_spec g hok hi h32
    exact ⟨t', h1, h3, h2⟩
  · obtain ⟨c1, c2, c3⟩ := Tup.clone_ok t hok
    obtain ⟨t', h1, h2, h3⟩ := Tup.delete_spec g c1 (c3 ▸ hi) h32
    refine ⟨t', ?_, by rw [h3, c2], h2⟩
    unfold Tup.remove
    rw [if_pos (by omega), h1]

example : (1 : Nat) < (⟨[5,6,7], 3⟩ : Tup Nat).len ∧ (1 : Nat) < 2^32 := by decide

/-- C13 (finding): an index outside the list (too large, or negative such as -1) does not leave the list unchanged: it
drops the *last* element. -/
theorem C13_delete_outside_refuted (g : Nat → α) (t : Tup α) (hok : t.len ≤ t.mem.length) (h0 : t.len ≠ 0)
    (h31 : t.len < 2^31) (i : Int) (hi : (t.len : Int) ≤ i ∧ i < 2^32 ∨ -(2^31) ≤ i ∧ i < 0) :
    ∃ t', t.delete g i = some t' ∧ t'.elems = t.elems.dropLast ∧ t'.elems ≠ t.elems := by
  have hl := Tup.elems_length hok
  have hs : ¬ Tup.toSize i < t.len := by unfold Tup.toSize; omega
  have hd : (t.mem.take (t.len - 1)) = t.elems.dropLast := by
    unfold Tup.elems
    rw [List.dropLast_eq_take, List.take_take, List.length_take]; congr 1; omega
  refine ⟨{ t with len := t.len - 1 }, ?_, hd, ?_⟩
  · unfold Tup.delete
    rw [if_pos h0]
    simp only [if_neg hs]
  · show t.mem.take (t.len - 1) ≠ t.elems
    rw [hd]
    intro he
    have := congrArg List.length he
    rw [List.length_dropLast, hl] at this; omega

example : Tup.delete (fun _ => 0) ⟨[1, 2, 3], 3⟩ (-1) = some ⟨[1, 2, 3], 2⟩ := by decide

/-! ### C41 -/

/-- C41 each: the callback sees the elements in order, each once, with its index. -/
theorem C41_each {σ : Type} (f : σ → α → Nat → σ) (g : Nat → α) (t : Tup α) (hok : t.len ≤ t.mem.length) (s : σ) :
    t.each f g s = (t.elems.zipIdx).foldl (fun s p => f s p.1 p.2) s := by
  have gen : ∀ n i s, i + n = t.len → Tup.eachLoop f t g n i s = ((t.elems.drop i).zipIdx i).foldl (fun s p => f s p.1 p.2) s := by
    intro n
    induction n with
    | zero =>
      intro i s h
      rw [List.drop_eq_nil_of_le (by rw [Tup.elems_length hok]; omega)]; rfl
    | succ n ih =>
      intro i s h
      rw [Tup.drop_cons_rd hok g (by omega), List.zipIdx_cons, List.foldl_cons]
      exact ih (i+1) _ (by omega)
  have := gen t.len 0 s (by omega)
  rw [List.drop_zero] at this
  exact this

/-- C41 map: the result is a new list of the same length holding the callback's result for each element, called in
order (`σ` threads the callback's side effects). -/
theorem C41_map {σ β : Type} (nil : β) (f : σ → α → σ × β) (g : Nat → α) (t : Tup α) (hok : t.len ≤ t.mem.length) (s : σ) :
    ∃ s' t', t.map nil f g s = some (s', t') ∧ t'.len ≤ t'.mem.length ∧
      (s', t'.elems) = t.elems.foldl (fun (p : σ × List β) v => ((f p.1 v).1, p.2 ++ [(f p.1 v).2])) (s, []) := by
  have gen : ∀ n i s (done : List β) (rest : List β), i + n = t.len → done.length = i → rest.length = n →
      ∃ s' out, Tup.mapLoop f t g n i s (done ++ rest) = some (s', out) ∧ out.length = t.len ∧
        (s', out) = (t.elems.drop i).foldl (fun (p : σ × List β) v => ((f p.1 v).1, p.2 ++ [(f p.1 v).2])) (s, done) := by
    intro n
    induction n with
    | zero =>
      intro i s done rest h hd hr
      have : rest = [] := List.eq_nil_of_length_eq_zero hr
      subst this
      rw [List.append_nil, List.drop_eq_nil_of_le (by rw [Tup.elems_length hok]; omega)]
      exact ⟨s, done, rfl, by omega, rfl⟩
    | succ n ih =>
      intro i s done rest h hd hr
      obtain ⟨r0, rest, rfl⟩ : ∃ r0 r, rest = r0 :: r := by
        cases rest with
        | nil => simp at hr
        | cons a b => exact ⟨a, b, rfl⟩
      rw [Tup.drop_cons_rd hok g (by omega), List.foldl_cons]
      simp only [Tup.mapLoop, Tup.wr]
      rw [if_pos (by simp; omega)]
      simp only
      have hset : (done ++ r0 :: rest).set i (f s (Tup.rd g t.mem i)).2 = (done ++ [(f s (Tup.rd g t.mem i)).2]) ++ rest := by
        rw [List.set_append_right _ _ (by omega), hd, Nat.sub_self, List.set_cons_zero]; simp
      rw [hset]
      exact ih (i+1) _ _ rest (by omega) (by simp; omega) (by simpa using hr)
  obtain ⟨s', out, h1, h2, h3⟩ := gen t.len 0 s [] (List.replicate t.len nil) (by omega) rfl (by simp)
  refine ⟨s', { mem := out, len := t.len }, ?_, by simp only; omega, ?_⟩
  · unfold Tup.map; rw [List.nil_append] at h1; rw [h1]
  · have : ({ mem := out, len := t.len } : Tup β).elems = out := by
      unfold Tup.elems; simp only; rw [List.take_of_length_le (by omega)]
    rw [this, h3, List.drop_zero]

/-- C41 filter: exactly the elements for which the callback returns true, in order. -/
theorem C41_filter {σ : Type} (nil : α) (p : σ → α → Nat → σ × Bool) (g : Nat → α) (t : Tup α) (hok : t.len ≤ t.mem.length) (s : σ) :
    ∃ s' t', t.filter nil p g s = some (s', t') ∧ t'.len ≤ t'.mem.length ∧
      (s', t'.elems) = t.elems.zipIdx.foldl
        (fun (q : σ × List α) v => ((p q.1 v.1 v.2).1, if (p q.1 v.1 v.2).2 then q.2 ++ [v.1] else q.2)) (s, []) := by
  have gen : ∀ n i s (out : Tup α), i + n = t.len → out.Roomy →
      ∃ s' t', Tup.filterLoop nil p t g n i s out = some (s', t') ∧ t'.Roomy ∧
        (s', t'.elems) = ((t.elems.drop i).zipIdx i).foldl
          (fun (q : σ × List α) v => ((p q.1 v.1 v.2).1, if (p q.1 v.1 v.2).2 then q.2 ++ [v.1] else q.2)) (s, out.elems) := by
    intro n
    induction n with
    | zero =>
      intro i s out h hr
      rw [List.drop_eq_nil_of_le (by rw [Tup.elems_length hok]; omega)]
      exact ⟨s, out, rfl, hr, rfl⟩
    | succ n ih =>
      intro i s out h hr
      rw [Tup.drop_cons_rd hok g (by omega), List.zipIdx_cons, List.foldl_cons]
      simp only [Tup.filterLoop]
      by_cases hb : (p s (Tup.rd g t.mem i) i).2 = true
      · obtain ⟨out', h1, h2, h3⟩ := Tup.push_spec nil hr (Tup.rd g t.mem i)
        simp only [hb, if_true, h1]
        rw [← h3]
        exact ih (i+1) _ out' (by omega) h2
      · simp only [hb]
        exact ih (i+1) _ out (by omega) hr
  obtain ⟨s', t', h1, h2, h3⟩ := gen t.len 0 s (Tup.empty nil) (by omega) (by simp [Tup.Roomy, Tup.empty])
  exact ⟨s', t', h1, h2.1, by rw [h3, List.drop_zero]; rfl⟩

/-- C41: with a side-effect-free callback, map is `List.map` and filter is `List.filter`. -/
theorem C41_pure {β : Type} (nilb : β) (nil : α) (f : α → β) (q : α → Bool) (g : Nat → α) (t : Tup α) (hok : t.len ≤ t.mem.length) :
    (∃ t', t.map nilb (fun (_ : Unit) v => ((), f v)) g () = some ((), t') ∧ t'.elems = t.elems.map f) ∧
    (∃ t', t.filter nil (fun (_ : Unit) v _ => ((), q v)) g () = some ((), t') ∧ t'.elems = t.elems.filter q) := by
  constructor
  · obtain ⟨s', t', h1, _, h3⟩ := C41_map nilb (fun (_ : Unit) v => ((), f v)) g t hok ()
    refine ⟨t', h1, ?_⟩
    have : ∀ (l : List α) (acc : List β), (l.foldl (fun (p : Unit × List β) v => ((), p.2 ++ [f v])) ((), acc)).2 = acc ++ l.map f := by
      intro l
      induction l with
      | nil => intro acc; simp
      | cons x xs ih => intro acc; rw [List.foldl_cons, ih]; simp
    have h4 := congrArg Prod.snd h3
    simp only at h4
    rw [h4]
    exact this t.elems []
  · obtain ⟨s', t', h1, _, h3⟩ := C41_filter nil (fun (_ : Unit) v _ => ((), q v)) g t hok ()
    refine ⟨t', h1, ?_⟩
    have : ∀ (l : List α) (i : Nat) (acc : List α), ((l.zipIdx i).foldl (fun (p : Unit × List α) v => ((), if q v.1 then p.2 ++ [v.1] else p.2)) ((), acc)).2 = acc ++ l.filter q := by
      intro l
      induction l with
      | nil => intro i acc; simp
      | cons x xs ih =>
        intro i acc
        rw [List.zipIdx_cons, List.foldl_cons, ih]
        by_cases hq : q x = true <;> simp [hq]
    have h4 := congrArg Prod.snd h3
    simp only at h4
    rw [h4]
    exact this t.elems 0 []

/-- C41 reduce: folds from the left, seeded with the initial value, or with the first element when none is given. -/
theorem C41_reduce {σ : Type} [DecidableEq α] (nil : α) (f : σ → α → α → σ × α) (g : Nat → α) (t : Tup α)
    (hok : t.len ≤ t.mem.length) (s : σ) (init : α) :
    t.reduce nil f g s init =
      (if init = nil then
        match t.elems with
        | [] => (s, init)
        | x :: xs => xs.foldl (fun p v => f p.1 p.2 v) (s, x)
      else t.elems.foldl (fun p v => f p.1 p.2 v) (s, init)) := by
  have gen : ∀ n i s acc, i + n = t.len → 0 < i →
      Tup.reduceLoop nil f t g n i s acc = (t.elems.drop i).foldl (fun p v => f p.1 p.2 v) (s, acc) := by
    intro n
    induction n with
    | zero =>
      intro i s acc h _
      rw [List.drop_eq_nil_of_le (by rw [Tup.elems_length hok]; omega)]; rfl
    | succ n ih =>
      intro i s acc h h0
      rw [Tup.drop_cons_rd hok g (by omega), List.foldl_cons]
      simp only [Tup.reduceLoop]
      rw [if_neg (by omega)]
      exact ih (i+1) _ _ (by omega) (by omega)
  unfold Tup.reduce
  cases hn : t.len with
  | zero =>
    have he : t.elems = [] := List.eq_nil_of_length_eq_zero (by rw [Tup.elems_length hok, hn])
    simp [Tup.reduceLoop, he]
  | succ n =>
    have hd := Tup.drop_cons_rd hok g (i := 0) (by omega)
    rw [List.drop_zero] at hd
    rw [hd]
    simp only [Tup.reduceLoop]
    by_cases hi : init = nil
    · rw [if_pos (by simp [hi]), if_pos hi]
      exact gen n 1 s _ (by omega) (by omega)
    · rw [if_neg (by simp [hi]), if_neg hi, List.foldl_cons]
      exact gen n 1 _ _ (by omega) (by omega)

/-- C41 join: the rendered elements in order with the separator between consecutive ones. -/
theorem C41_join {β : Type} (str : α → List β) (sep : List β) (g : Nat → α) (t : Tup α) (hok : t.len ≤ t.mem.length) :
    t.join str sep g = List.intercalate sep (t.elems.map str) := by
  have gen : ∀ n i out, i + n = t.len → 0 < i →
      Tup.joinLoop str sep t g n i out = out ++ ((t.elems.drop i).map (fun v => sep ++ str v)).flatten := by
    intro n
    induction n with
    | zero =>
      intro i out h _
      rw [List.drop_eq_nil_of_le (by rw [Tup.elems_length hok]; omega)]; simp [Tup.joinLoop]
    | succ n ih =>
      intro i out h h0
      rw [Tup.drop_cons_rd hok g (by omega)]
      simp only [Tup.joinLoop]
      rw [if_pos h0, ih (i+1) _ (by omega) (by omega)]
      simp
  have inter : ∀ (x : List β) (l : List (List β)), List.intercalate sep (x :: l) = x ++ (l.map (sep ++ ·)).flatten := by
    intro x l
    induction l generalizing x with
    | nil => simp [List.intercalate]
    | cons y ys ih =>
      have : List.intercalate sep (x :: y :: ys) = x ++ sep ++ List.intercalate sep (y :: ys) := by
        simp [List.intercalate, List.intersperse]
      rw [this, ih]; simp
  unfold Tup.join
  cases hn : t.len with
  | zero =>
    have he : t.elems = [] := List.eq_nil_of_length_eq_zero (by rw [Tup.elems_length hok, hn])
    simp [Tup.joinLoop, he, List.intercalate]
  | succ n =>
    have hd := Tup.drop_cons_rd hok g (i := 0) (by omega)
    rw [List.drop_zero] at hd
    rw [hd]
    simp only [Tup.joinLoop, List.map_cons]
    rw [inter, gen n 1 _ (by omega) (by omega)]
    simp [List.map_map, Function.comp_def]

example : Tup.join (fun n => [n]) [0] (fun _ => 9) ⟨[1, 2, 3, 7], 3⟩ = [1, 0, 2, 0, 3] := by decide

end Potion.Props
