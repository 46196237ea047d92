import Verif.Model.Tuple
import Verif.Spec.Seq
namespace Potion.Tup
open Potion.Spec
variable {α : Type}

/-- Representation invariant: the visible part lies in the block. -/
def Ok (t : Tup α) : Prop := t.len ≤ t.mem.length

theorem elems_length {t : Tup α} (h : t.Ok) : t.elems.length = t.len := by
  unfold elems; rw [List.length_take]; exact Nat.min_eq_left h

theorem rd_elems {t : Tup α} (h : t.Ok) (g : Nat → α) {i : Nat} (hi : i < t.len) :
    t.elems[i]? = some (rd g t.mem i) := by
  have : i < t.mem.length := Nat.lt_of_lt_of_le hi h
  unfold elems rd
  rw [List.getElem?_take, if_pos hi, List.getD_eq_getElem?_getD, List.getElem?_eq_getElem this]; rfl

theorem realloc_take (nil : α) (mem : List α) (n k : Nat) (hk : k ≤ mem.length) :
    (realloc nil mem n).take k = mem.take k := by
  unfold realloc; split
  · rfl
  · rw [List.take_append_of_le_length hk]

theorem realloc_length (nil : α) (mem : List α) (n : Nat) : (realloc nil mem n).length = max mem.length n := by
  unfold realloc; split
  · omega
  · simp; omega

/-- Room for at least one more element can be made by doubling. -/
def Roomy (t : Tup α) : Prop := t.len ≤ t.mem.length ∧ 0 < t.mem.length

theorem push_spec (nil : α) {t : Tup α} (h : t.Roomy) (v : α) :
    ∃ t', t.push nil v = some t' ∧ t'.Roomy ∧ t'.elems = t.elems ++ [v] := by
  obtain ⟨h1, h2⟩ := h
  unfold push
  have key : ∀ mem : List α, mem.take t.len = t.mem.take t.len → t.len < mem.length →
      ∃ t', (match wr mem t.len v with | none => none | some mem => some ({ mem, len := t.len + 1 } : Tup α)) = some t' ∧
        t'.Roomy ∧ t'.elems = t.elems ++ [v] := by
    intro mem hm hl
    refine ⟨{ mem := mem.set t.len v, len := t.len + 1 }, by simp only [wr, if_pos hl], ?_, ?_⟩
    · simp only [Roomy, List.length_set]; omega
    · unfold elems
      simp only
      rw [List.take_succ, List.take_set_of_le (by omega), hm, List.getElem?_set_self hl]; rfl
  simp only
  by_cases hge : t.len ≥ t.mem.length
  · simp only [if_pos hge]
    apply key
    · exact realloc_take nil _ _ _ h1
    · rw [realloc_length]; omega
  · simp only [if_neg hge]; exact key _ rfl (by omega)

theorem memmove_eq (g : Nat → α) (mem : List α) (dst src n : Nat) (h : dst + n ≤ mem.length) :
    memmove g mem dst src n =
      some (mem.take dst ++ (List.range n).map (fun k => rd g mem (src + k)) ++ mem.drop (dst + n)) := by
  unfold memmove; rw [if_pos h]

theorem range_rd (g : Nat → α) (mem : List α) (src n : Nat) (h : src + n ≤ mem.length) :
    (List.range n).map (fun k => rd g mem (src + k)) = (mem.drop src).take n := by
  apply List.ext_getElem?
  intro i
  rw [List.getElem?_map]
  by_cases hi : i < n
  · rw [List.getElem?_range hi, List.getElem?_take, if_pos hi, List.getElem?_drop]
    have : src + i < mem.length := by omega
    simp [rd, List.getElem?_eq_getElem this]
  · rw [List.getElem?_eq_none (by simp; omega), List.getElem?_eq_none (by simp; omega)]; rfl

theorem unshift_spec (nil : α) (g : Nat → α) {t : Tup α} (h : t.Ok) (v : α) :
    ∃ t', t.unshift nil g v = some t' ∧ t'.Roomy ∧ t'.elems = v :: t.elems := by
  unfold unshift
  have key : ∀ mem : List α, mem.take t.len = t.mem.take t.len → t.len < mem.length →
      ∃ t', (match memmove g mem 1 0 t.len with
        | none => none
        | some mem => match wr mem 0 v with
          | none => none
          | some mem => some ({ mem, len := t.len + 1 } : Tup α)) = some t' ∧ t'.Roomy ∧ t'.elems = v :: t.elems := by
    intro mem hm hl
    rw [memmove_eq g mem 1 0 t.len (by omega), range_rd g mem 0 t.len (by omega)]
    obtain ⟨x, rest, rfl⟩ : ∃ x rest, mem = x :: rest := by
      cases mem with
      | nil => simp at hl
      | cons x rest => exact ⟨x, rest, rfl⟩
    simp only [List.drop_zero, List.take_succ_cons, List.take_zero, List.nil_append, List.cons_append]
    simp only [wr, List.length_cons, Nat.zero_lt_succ, if_true, List.set_cons_zero]
    refine ⟨_, rfl, ?_, ?_⟩
    · simp only [Roomy, List.length_cons, List.length_append, List.length_take, List.length_drop] at *
      omega
    · unfold elems
      simp only [List.take_succ_cons]
      rw [List.take_append_of_le_length (by simp only [List.length_take, List.length_cons] at *; omega)]
      rw [List.take_take, Nat.min_self, hm]
  simp only
  by_cases hge : t.len ≥ t.mem.length
  · simp only [if_pos hge]
    apply key
    · exact realloc_take nil _ _ _ h
    · rw [realloc_length]; unfold Ok at h; omega
  · simp only [if_neg hge]; exact key _ rfl (by omega)

theorem pop_spec (g : Nat → α) {t : Tup α} (h : t.Ok) {x : α} (hx : t.elems.getLast? = some x) :
    ∃ t', t.pop g = some (t', x) ∧ t'.Ok ∧ t'.mem = t.mem ∧ t'.elems = t.elems.dropLast := by
  have hl := elems_length h
  have hne : t.len ≠ 0 := by
    intro h0
    rw [h0] at hl
    rw [List.eq_nil_of_length_eq_zero hl] at hx; cases hx
  refine ⟨{ t with len := t.len - 1 }, ?_, ?_, rfl, ?_⟩
  · unfold pop
    rw [if_neg hne]
    rw [List.getLast?_eq_getElem?, hl, rd_elems h g (by omega)] at hx
    cases hx; rfl
  · unfold Ok at *; simp only; omega
  · unfold elems
    simp only
    rw [List.dropLast_eq_take, List.take_take, List.length_take]
    congr 1
    unfold Ok at h; omega

theorem shift_spec (g : Nat → α) {t : Tup α} (h : t.Ok) {x : α} {l : List α} (hx : t.elems = x :: l) :
    ∃ t', t.shift g = some (t', x) ∧ t'.Ok ∧ t'.mem.length = t.mem.length ∧ t'.elems = l := by
  have hl := elems_length h
  rw [hx] at hl
  simp only [List.length_cons] at hl
  unfold Ok at h
  have hx0 : rd g t.mem 0 = x := by
    have := rd_elems (t := t) h g (i := 0) (by omega)
    rw [hx] at this; simpa using this.symm
  unfold shift
  rw [if_neg (by omega), memmove_eq g t.mem 0 1 t.len (by omega)]
  refine ⟨⟨_, _⟩, by simp only [hx0]; rfl, ?_, ?_, ?_⟩
  · unfold Ok; simp only [List.length_append, List.length_map, List.length_range, List.length_take, List.length_drop]; omega
  · simp only [List.length_append, List.length_map, List.length_range, List.length_take, List.length_drop]; omega
  · unfold elems
    simp only [List.take_zero, List.nil_append]
    rw [List.take_append_of_le_length (by simp)]
    apply List.ext_getElem?
    intro i
    rw [List.getElem?_take]
    by_cases hi : i < t.len - 1
    · rw [if_pos hi, List.getElem?_map, List.getElem?_range (by omega)]
      have := rd_elems (t := t) h g (i := 1 + i) (by omega)
      rw [hx, Nat.add_comm 1 i, List.getElem?_cons_succ] at this
      rw [this]; simp only [Option.map_some, Nat.add_comm 1 i]
    · rw [if_neg hi, List.getElem?_eq_none (by omega)]

/-- The same operation on the mathematical sequence. -/
def Op.spec : Op α → SeqOp α
  | .push v => .push v
  | .unshift v => .unshift v
  | .pop => .pop
  | .shift => .shift

theorem apply_spec (nil : α) (g : Nat → α) {t : Tup α} (h : t.Roomy) (op : Op α) {l' : List α} {o : Option α}
    (hs : op.spec.step t.elems = some (l', o)) :
    ∃ t', t.apply nil g op = some (t', o) ∧ t'.Roomy ∧ t'.elems = l' := by
  cases op with
  | push v =>
    simp only [Op.spec, SeqOp.step, Option.some.injEq, Prod.mk.injEq] at hs
    obtain ⟨t', h1, h2, h3⟩ := push_spec nil h v
    exact ⟨t', by simp [apply, h1, ← hs.2], h2, by rw [h3, hs.1]⟩
  | unshift v =>
    simp only [Op.spec, SeqOp.step, Option.some.injEq, Prod.mk.injEq] at hs
    obtain ⟨t', h1, h2, h3⟩ := unshift_spec nil g h.1 v
    exact ⟨t', by simp [apply, h1, ← hs.2], h2, by rw [h3, hs.1]⟩
  | pop =>
    simp only [Op.spec, SeqOp.step] at hs
    split at hs
    · cases hs
    · rename_i x hx
      cases hs
      obtain ⟨t', h1, h2, h3, h4⟩ := pop_spec g h.1 hx
      exact ⟨t', by simp [apply, h1], ⟨h2, by rw [h3]; exact h.2⟩, h4⟩
  | shift =>
    simp only [Op.spec] at hs
    cases he : t.elems with
    | nil => rw [he] at hs; simp [SeqOp.step] at hs
    | cons x l =>
      rw [he] at hs
      simp only [SeqOp.step, Option.some.injEq, Prod.mk.injEq] at hs
      obtain ⟨t', h1, h2, h3, h4⟩ := shift_spec g h.1 he
      exact ⟨t', by simp [apply, h1, ← hs.2], ⟨h2, by rw [h3]; exact h.2⟩, by rw [h4, hs.1]⟩

theorem run_spec (nil : α) (g : Nat → Nat → α) (ops : List (Op α)) :
    ∀ {t : Tup α}, t.Roomy → ∀ {l os}, seqRun t.elems (ops.map Op.spec) = some (l, os) →
      ∃ t', t.run nil g ops = some (t', os) ∧ t'.Roomy ∧ t'.elems = l := by
  induction ops with
  | nil =>
    intro t h l os hs
    simp only [List.map_nil, seqRun, Option.some.injEq, Prod.mk.injEq] at hs
    exact ⟨t, by simp [run, hs.2], h, hs.1⟩
  | cons op ops ih =>
    intro t h l os hs
    simp only [List.map_cons, seqRun] at hs
    cases h1 : op.spec.step t.elems with
    | none => rw [h1] at hs; cases hs
    | some lo =>
      obtain ⟨l1, o⟩ := lo
      rw [h1] at hs
      simp only at hs
      obtain ⟨t1, ha, hr, he⟩ := apply_spec nil (g ops.length) h op h1
      cases h2 : seqRun l1 (ops.map Op.spec) with
      | none => rw [h2] at hs; cases hs
      | some los =>
        obtain ⟨l2, os2⟩ := los
        rw [h2] at hs
        simp only [Option.some.injEq, Prod.mk.injEq] at hs
        rw [← he] at h2
        obtain ⟨t2, hb, hr2, he2⟩ := ih hr h2
        exact ⟨t2, by simp [run, ha, hb, hs.2], hr2, by rw [he2, hs.1]⟩

/-! Deletion -/

theorem delete_spec (g : Nat → α) {t : Tup α} (h : t.Ok) {i : Nat} (hi : i < t.len) (h32 : i < 2^32) :
    ∃ t', t.delete g (i : Int) = some t' ∧ t'.Ok ∧ t'.elems = t.elems.eraseIdx i := by
  have hs : toSize (i : Int) = i := by unfold toSize; omega
  unfold delete
  rw [if_pos (by omega)]
  simp only [hs]
  unfold Ok at h
  rw [if_pos hi, memmove_eq g t.mem i (i+1) (t.len - i) (by omega)]
  refine ⟨_, rfl, ?_, ?_⟩
  · unfold Ok; simp only [List.length_append, List.length_map, List.length_range, List.length_take, List.length_drop]; omega
  · unfold elems
    simp only
    rw [List.take_append_of_le_length (by simp only [List.length_append, List.length_map, List.length_range, List.length_take]; omega)]
    apply List.ext_getElem?
    intro k
    rw [List.getElem?_take, List.getElem?_eraseIdx]
    have hlt : (List.take i t.mem).length = i := by simp; omega
    by_cases hk : k < t.len - 1
    · rw [if_pos hk]
      by_cases hki : k < i
      · rw [if_pos hki, List.getElem?_append_left (by omega), List.getElem?_take, if_pos hki, List.getElem?_take, if_pos (by omega)]
      · rw [if_neg hki, List.getElem?_append_right (by omega), hlt, List.getElem?_map, List.getElem?_range (by omega),
          List.getElem?_take, if_pos (by omega)]
        have : i + 1 + (k - i) = k + 1 := by omega
        simp only [Option.map_some, this, rd]
        rw [List.getD_eq_getElem?_getD, List.getElem?_eq_getElem (by omega : k + 1 < t.mem.length)]; rfl
    · rw [if_neg hk]
      symm
      rw [if_neg (by omega), List.getElem?_take, if_neg (by omega)]

theorem clone_ok (t : Tup α) (h : t.Ok) : t.clone.Ok ∧ t.clone.elems = t.elems ∧ t.clone.len = t.len := by
  unfold Ok at *
  refine ⟨by simp only [clone, List.length_take]; omega, ?_, rfl⟩
  unfold elems clone; simp only [List.take_take, Nat.min_self]

/-! Iteration -/

theorem drop_cons_rd {t : Tup α} (h : t.Ok) (g : Nat → α) {i : Nat} (hi : i < t.len) :
    t.elems.drop i = rd g t.mem i :: t.elems.drop (i+1) := by
  have h1 := rd_elems h g hi
  have h2 : i < t.elems.length := by rw [elems_length h]; exact hi
  rw [List.drop_eq_getElem_cons h2]
  congr 1
  rw [List.getElem?_eq_getElem h2] at h1
  exact Option.some.inj h1

end Potion.Tup
