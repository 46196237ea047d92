import Verif.Proof.Sort
import Verif.Proof.Number
import Verif.Model.Cmp
import Verif.Spec.Order
/-! Properties C14, C15, C16 and C38: reversing, searching, sorting and comparing lists. -/
namespace Potion.Props
open Potion Spec Sorting

/-! ### C14 reverse -/

/-- C14: `reverse` and `nreverse` produce the elements in opposite order, for every list, without leaving the block. -/
theorem C14_reverse (m : List PN) : reverse m = some m.reverse ∧ nreverse m = some m.reverse :=
  ⟨reverse_eq m, nreverse_eq m⟩

example : nreverse [1, 3, 5, 7, 9] = some [9, 7, 5, 3, 1] := by decide

/-- C14: applying either twice gives the original list back. -/
theorem C14_involutive (m : List PN) :
    (∃ r, reverse m = some r ∧ reverse r = some m) ∧ (∃ r, nreverse m = some r ∧ nreverse r = some m) := by
  refine ⟨⟨m.reverse, reverse_eq m, ?_⟩, ⟨m.reverse, nreverse_eq m, ?_⟩⟩
  · rw [reverse_eq, List.reverse_reverse]
  · rw [nreverse_eq, List.reverse_reverse]

/-! ### C15 binary search -/

/-- C15: on a non-empty list ordered by the identity hash `h`, `bsearch x` returns an index whose element has the same
identity as `x` if there is one, and -1 otherwise; it never reads outside the list. -/
theorem C15_bsearch_partial (h : PN → Nat) (m : List PN) (x : PN) (hm : m ≠ []) (hlen : m.length < 2^32)
    (hs : (m.map h).Pairwise (· ≤ ·)) :
    (∃ k : Nat, ∃ y, bsearch h m x = some (k : Int) ∧ m[k]? = some y ∧ h y = h x) ∨
    (bsearch h m x = some (-1) ∧ ∀ y ∈ m, h y ≠ h x) := by
  have hpos : 0 < m.length := List.length_pos_iff.2 hm
  have hl1 : lenMinus1 m.length = m.length - 1 := by unfold lenMinus1; omega
  have hs' : ∀ (a b : Nat) (ha : a < m.length) (hb : b < m.length), a ≤ b → h m[a] ≤ h m[b] := by
    intro a b ha hb hab
    rcases Nat.lt_or_eq_of_le hab with hlt | rfl
    · have := List.pairwise_iff_getElem.1 hs a b (by simpa using ha) (by simpa using hb) hlt
      simpa using this
    · exact Nat.le_refl _
  rcases bsearchLoop_spec h m (h x) hs' m.length 0 (lenMinus1 m.length : Nat) (by omega) (by omega) (by omega) with
    ⟨k, hk, h1, h2⟩ | ⟨h1, h2⟩
  · exact Or.inl ⟨k, m[k], h1, List.getElem?_eq_getElem hk, h2⟩
  · refine Or.inr ⟨h1, ?_⟩
    intro y hy
    obtain ⟨k, hk, rfl⟩ := List.mem_iff_getElem.1 hy
    exact h2 k hk (by omega) (by omega)

example : (([1, 3, 5, 9] : List PN).map numHash).Pairwise (· ≤ ·) ∧ bsearch numHash [1, 3, 5, 9] 5 = some 2 ∧
    bsearch numHash [1, 3, 5, 9] 7 = some (-1) := by decide

/-- C15 (finding): on an empty list the search reads far outside the block (`t->len - 1` wraps to 2^32-1), whatever the
number of rounds granted. -/
theorem C15_bsearch_empty_refuted (h : PN → Nat) (x : PN) (fuel : Nat) :
    bsearchLoop h [] (h x) fuel 0 (lenMinus1 0 : Nat) = none := by
  cases fuel with
  | zero => simp [bsearchLoop, lenMinus1]
  | succ f => simp [bsearchLoop, lenMinus1]

/-- Identity hash of a small integer. -/
theorem numHash_small (i : Nat) (hi : i < 1024) : numHash (pnNum (i : Int)) = 2049 * (2 * i + 1) := by
  have : ∀ i : Fin 1024, numHash (pnNum ((i.val : Nat) : Int)) = 2049 * (2 * i.val + 1) := by decide +kernel
  exact this ⟨i, hi⟩

/-- C15: for integers below 1024 numeric order and identity order agree, so `bsearch` works on any numerically sorted
list of them. -/
theorem C15_bsearch_small_partial (l : List Nat) (x : Nat) (hl : l ≠ []) (hlen : l.length < 2^32) (hs : l.Pairwise (· ≤ ·))
    (hb : ∀ i ∈ l, i < 1024) (hx : x < 1024) :
    (∃ k : Nat, bsearch numHash (l.map fun i : Nat => pnNum i) (pnNum x) = some (k : Int) ∧ l[k]? = some x) ∨
    (bsearch numHash (l.map fun i : Nat => pnNum i) (pnNum x) = some (-1) ∧ x ∉ l) := by
  have hs' : ((l.map fun i : Nat => pnNum i).map numHash).Pairwise (· ≤ ·) := by
    rw [List.map_map, List.pairwise_map]
    refine hs.imp_of_mem ?_
    intro a b ha hb' hab
    simp only [Function.comp_apply]
    rw [numHash_small a (hb a ha), numHash_small b (hb b hb')]
    omega
  rcases C15_bsearch_partial numHash (l.map fun i : Nat => pnNum i) (pnNum x) (by simpa using hl) (by simpa using hlen) hs' with
    ⟨k, y, h1, h2, h3⟩ | ⟨h1, h2⟩
  · refine Or.inl ⟨k, h1, ?_⟩
    rw [List.getElem?_map] at h2
    cases hk : l[k]? with
    | none => rw [hk] at h2; simp at h2
    | some z =>
      rw [hk] at h2
      simp only [Option.map_some, Option.some.injEq] at h2
      subst h2
      have hz : z < 1024 := hb z (List.mem_of_getElem? hk)
      rw [numHash_small z hz, numHash_small x hx] at h3
      congr 1; omega
  · refine Or.inr ⟨h1, ?_⟩
    intro hxl
    exact h2 (pnNum x) (List.mem_map.2 ⟨x, hxl, rfl⟩) rfl

/-- C15 (finding): a numerically sorted list is not ordered by identity in general, and `bsearch` misses its elements:
2048 is not found in (2048, 2049, 2050). -/
theorem C15_bsearch_numeric_refuted :
    bsearch numHash [pnNum 2048, pnNum 2049, pnNum 2050] (pnNum 2048) = some (-1) := by decide +kernel

/-! ### C16 sorting -/

/-- C16: in every mode, `sort` and `ins_sort` of a non-empty list terminate and yield a permutation of it. -/
theorem C16_sort_permutation (h : PN → Nat) (mode : Mode) (m : List PN) (hm : m ≠ []) (hlen : m.length < 2^32) :
    (∃ m', sort h mode m = some m' ∧ m'.Perm m) ∧ (∃ m', insSort h mode m = some m' ∧ m'.Perm m) := by
  obtain ⟨m', h1, h2, _⟩ := sortWhole h mode m hm hlen
  refine ⟨⟨m', h1, h2⟩, ?_⟩
  unfold insSort
  by_cases hl : m.length < MAX_INS_SORT
  · rw [if_pos hl]
    obtain ⟨m'', g1, g2, _⟩ := insWhole (gt h mode) m
    exact ⟨m'', g1, g2⟩
  · rw [if_neg hl]; exact ⟨m', h1, h2⟩

example : sort numHash .asc [9, 3, 7, 3, 1] = some [1, 3, 3, 7, 9] := by decide +kernel

/-- C16 (finding): sorting the empty list reads outside the block, at every recursion depth allowed. -/
theorem C16_sort_empty_refuted (h : PN → Nat) (mode : Mode) (fuel : Nat) :
    sortInternal h mode fuel 0 (lenMinus1 0) [] = none := by
  cases fuel with
  | zero => simp [sortInternal, lenMinus1]
  | succ f => simp [sortInternal, lenMinus1, rd]

theorem unsigned_le_iff {a b : Int} (ha : 0 ≤ a) (ha' : a < 2^62) (hb : 0 ≤ b) (hb' : b < 2^62) :
    (pnNum a).toNat ≤ (pnNum b).toNat ↔ a ≤ b := by
  have h1 := toNat_pnNum a
  have h2 := toNat_pnNum b
  omega

theorem perm_ints {l : List Int} (hl : ∀ i ∈ l, InRange i) {m' : List PN} (hp : m'.Perm (l.map pnNum)) :
    ∃ l' : List Int, m' = l'.map pnNum ∧ l'.Perm l := by
  refine ⟨m'.map pnInt, ?_, ?_⟩
  · rw [List.map_map]
    symm
    rw [List.map_congr_left (g := id), List.map_id]
    intro w hw
    obtain ⟨i, _, rfl⟩ := List.mem_map.1 (hp.subset hw)
    exact pnNum_pnInt (isInt_pnNum i)
  · have := hp.map pnInt
    rw [List.map_map] at this
    refine this.trans ?_
    rw [List.map_congr_left (g := id), List.map_id]
    intro i hi
    exact pnInt_pnNum_of_fits (hl i hi)

/-- C16: `sort(true)`/`ins_sort(true)` of a non-empty list of non-negative integers is the list in ascending numeric
order; `sort(false)`/`ins_sort(false)` in descending order. -/
theorem C16_sort_by_value_partial (h : PN → Nat) (l : List Int) (hne : l ≠ []) (hlen : l.length < 2^32)
    (hl : ∀ i ∈ l, 0 ≤ i ∧ i < 2^62) :
    (∃ l' : List Int, sort h .asc (l.map pnNum) = some (l'.map pnNum) ∧ l'.Perm l ∧ l'.Pairwise (· ≤ ·)) ∧
    (∃ l' : List Int, sort h .desc (l.map pnNum) = some (l'.map pnNum) ∧ l'.Perm l ∧ l'.Pairwise (· ≥ ·)) ∧
    (∃ l' : List Int, insSort h .asc (l.map pnNum) = some (l'.map pnNum) ∧ l'.Perm l ∧ l'.Pairwise (· ≤ ·)) ∧
    (∃ l' : List Int, insSort h .desc (l.map pnNum) = some (l'.map pnNum) ∧ l'.Perm l ∧ l'.Pairwise (· ≥ ·)) := by
  have hr : ∀ i ∈ l, InRange i := fun i hi => ⟨by have := (hl i hi).1; omega, (hl i hi).2⟩
  have hne' : l.map pnNum ≠ [] := by simpa using hne
  have hlen' : (l.map pnNum).length < 2^32 := by simpa using hlen
  -- translate an ordering of words into an ordering of integers
  have conv : ∀ (R : Nat → Nat → Prop) (r : Int → Int → Prop),
      (∀ a b : Int, a ∈ l → b ∈ l → R (pnNum a).toNat (pnNum b).toNat → r a b) →
      ∀ m' : List PN, m'.Perm (l.map pnNum) → m'.Pairwise (fun x y => R x.toNat y.toNat) →
      ∃ l' : List Int, m' = l'.map pnNum ∧ l'.Perm l ∧ l'.Pairwise r := by
    intro R r hRr m' hp hs
    obtain ⟨l', rfl, hl'⟩ := perm_ints hr hp
    refine ⟨l', rfl, hl', ?_⟩
    rw [List.pairwise_map] at hs
    exact hs.imp_of_mem (fun ha hb hab => hRr _ _ (hl'.subset ha) (hl'.subset hb) hab)
  have up : ∀ a b : Int, a ∈ l → b ∈ l → (pnNum a).toNat ≤ (pnNum b).toNat → a ≤ b := fun a b ha hb hab =>
    (unsigned_le_iff (hl a ha).1 (hl a ha).2 (hl b hb).1 (hl b hb).2).1 hab
  have down : ∀ a b : Int, a ∈ l → b ∈ l → (pnNum a).toNat ≥ (pnNum b).toNat → a ≥ b := fun a b ha hb hab =>
    (unsigned_le_iff (hl b hb).1 (hl b hb).2 (hl a ha).1 (hl a ha).2).1 hab
  have q1 : ∃ l' : List Int, sortInternal h .asc (l.map pnNum).length 0 (lenMinus1 (l.map pnNum).length) (l.map pnNum) = some (l'.map pnNum)
      ∧ l'.Perm l ∧ l'.Pairwise (· ≤ ·) := by
    obtain ⟨m', h1, h2, h3⟩ := sortWhole h .asc _ hne' hlen'
    have := h3 (by simp) (fun x y => x.toNat ≤ y.toNat) (fun a b c => Nat.le_trans)
      (by intro x _ p _ hb; simpa [before] using hb) (by intro x _ p _ hb; simp [before] at hb; omega)
    obtain ⟨l', rfl, a, b⟩ := conv (· ≤ ·) (· ≤ ·) up m' h2 this
    exact ⟨l', h1, a, b⟩
  have q2 : ∃ l' : List Int, sortInternal h .desc (l.map pnNum).length 0 (lenMinus1 (l.map pnNum).length) (l.map pnNum) = some (l'.map pnNum)
      ∧ l'.Perm l ∧ l'.Pairwise (· ≥ ·) := by
    obtain ⟨m', h1, h2, h3⟩ := sortWhole h .desc _ hne' hlen'
    have := h3 (by simp) (fun x y => x.toNat ≥ y.toNat) (fun a b c h1 h2 => Nat.le_trans h2 h1)
      (by intro x _ p _ hb; simp [before] at hb; omega) (by intro x _ p _ hb; simpa [before] using hb)
    obtain ⟨l', rfl, a, b⟩ := conv (· ≥ ·) (· ≥ ·) down m' h2 this
    exact ⟨l', h1, a, b⟩
  refine ⟨q1, q2, ?_, ?_⟩
  · unfold insSort
    split
    · obtain ⟨m', h1, h2, h3⟩ := insWhole (gt h .asc) (l.map pnNum)
      have := h3 (fun x y => x.toNat ≤ y.toNat) (fun a b c => Nat.le_trans)
        (by intro x _ p _ hb; simp [gt] at hb; omega) (by intro x _ p _ hb; simpa [gt] using hb)
      obtain ⟨l', rfl, a, b⟩ := conv (· ≤ ·) (· ≤ ·) up m' h2 this
      exact ⟨l', h1, a, b⟩
    · exact q1
  · unfold insSort
    split
    · obtain ⟨m', h1, h2, h3⟩ := insWhole (gt h .desc) (l.map pnNum)
      have := h3 (fun x y => x.toNat ≥ y.toNat) (fun a b c h1 h2 => Nat.le_trans h2 h1)
        (by intro x _ p _ hb; simp [gt] at hb; omega) (by intro x _ p _ hb; simpa [gt] using hb)
      obtain ⟨l', rfl, a, b⟩ := conv (· ≥ ·) (· ≥ ·) down m' h2 this
      exact ⟨l', h1, a, b⟩
    · exact q2

example : ∀ i ∈ ([5, 0, 2^62 - 1, 7] : List Int), 0 ≤ i ∧ i < 2^62 := by decide

/-- C16 (finding): negative integers compare as huge unsigned words: `(1, -1) sort(true)` leaves 1 before -1. -/
theorem C16_sort_negative_refuted (h : PN → Nat) :
    sort h .asc [pnNum 1, pnNum (-1)] = some [pnNum 1, pnNum (-1)] ∧ insSort h .asc [pnNum 1, pnNum (-1)] = some [pnNum 1, pnNum (-1)] := by
  constructor <;> rfl

/-- C16 (finding): without argument the last element before the pivot is skipped: the identity hashes of `(1, 3, 2) sort`
are not in order. -/
theorem C16_sort_default_refuted :
    sort numHash .uniq [pnNum 1, pnNum 3, pnNum 2] = some [pnNum 1, pnNum 3, pnNum 2] ∧
    numHash (pnNum 3) > numHash (pnNum 2) := by decide +kernel

/-- C16: `ins_sort` without argument orders short lists by identity hash. -/
theorem C16_ins_sort_default_partial (h : PN → Nat) (m : List PN) (hl : m.length < 10) :
    ∃ m', insSort h .uniq m = some m' ∧ m'.Perm m ∧ m'.Pairwise (fun x y => h x ≤ h y) := by
  unfold insSort MAX_INS_SORT
  rw [if_pos hl]
  obtain ⟨m', h1, h2, h3⟩ := insWhole (gt h .uniq) m
  exact ⟨m', h1, h2, h3 _ (fun a b c => Nat.le_trans) (by intro x _ p _ hb; simp [gt] at hb; omega)
    (by intro x _ p _ hb; simpa [gt] using hb)⟩

example : ([5, 3, 9] : List PN).length < 10 := by decide

/-- C16 (finding): with a comparison block that follows the documented convention (`f a b` positive exactly when `a`
comes after `b` in the total preorder `le`), `sort` always returns *descending* order, and `ins_sort` returns ascending
order below ten elements and descending order from ten on. -/
theorem C16_sort_block_descending (h : PN → Nat) (f : PN → PN → Int) (le : PN → PN → Prop)
    (htrans : ∀ a b c, le a b → le b c → le a c) (htotal : ∀ a b, le a b ∨ le b a) (hf : ∀ a b, f a b > 0 ↔ ¬ le a b)
    (m : List PN) (hm : m ≠ []) (hlen : m.length < 2^32) :
    (∃ m', sort h (.by f) m = some m' ∧ m'.Perm m ∧ m'.Pairwise (fun x y => le y x)) ∧
    (∃ m', insSort h (.by f) m = some m' ∧ m'.Perm m ∧
      m'.Pairwise (fun x y => if m.length < 10 then le x y else le y x)) := by
  have q : ∃ m', sort h (.by f) m = some m' ∧ m'.Perm m ∧ m'.Pairwise (fun x y => le y x) := by
    obtain ⟨m', h1, h2, h3⟩ := sortWhole h (.by f) m hm hlen
    refine ⟨m', h1, h2, h3 (by simp) (fun x y => le y x) (fun a b c p q => htrans _ _ _ q p) ?_ ?_⟩
    · intro x _ p _ hb
      simp only [before, decide_eq_true_eq] at hb
      rcases htotal x p with h | h
      · exact absurd h ((hf x p).1 hb)
      · exact h
    · intro x _ p _ hb
      simp only [before, decide_eq_false_iff_not] at hb
      exact Classical.byContradiction fun hc => hb ((hf x p).2 hc)
  refine ⟨q, ?_⟩
  unfold insSort MAX_INS_SORT
  by_cases hl : m.length < 10
  · rw [if_pos hl]
    simp only [if_pos hl]
    obtain ⟨m', h1, h2, h3⟩ := insWhole (gt h (.by f)) m
    refine ⟨m', h1, h2, h3 _ htrans ?_ ?_⟩
    · intro x _ y _ hb
      simp only [gt, decide_eq_true_eq] at hb
      rcases htotal x y with h | h
      · exact absurd h ((hf x y).1 hb)
      · exact h
    · intro x _ y _ hb
      simp only [gt, decide_eq_false_iff_not] at hb
      exact Classical.byContradiction fun hc => hb ((hf x y).2 hc)
  · rw [if_neg hl]
    simp only [if_neg hl]
    exact q

example : ∀ a b : PN, ((a.toNat : Int) - b.toNat > 0 ↔ ¬ a.toNat ≤ b.toNat) := by intro a b; omega

/-! ### C38 comparison -/

/-- What comparing two integer lists really computes: the first elements decide; if they are equal only the lengths
matter, a shorter left list gives -1, a longer one the integer 0, equal lengths nil. -/
def listCmpActual : List Int → List Int → PN
  | [], [] => PN_NIL
  | [], _ :: _ => pnNum (-1)
  | _ :: _, [] => pnNum 0
  | a :: l, b :: m =>
    if a < b then pnNum (-1) else if b < a then pnNum 1
    else if l.length < m.length then pnNum (-1) else if m.length < l.length then pnNum 0 else PN_NIL

theorem numCmp_ints {a b : Int} (ha : InRange a) (hb : InRange b) :
    numCmp (pnNum a) (pnNum b) = if a < b then pnNum (-1) else if b < a then pnNum 1 else PN_ZERO := by
  unfold numCmp
  rw [pnInt_pnNum_of_fits ha, pnInt_pnNum_of_fits hb]
  by_cases h1 : a < b
  · simp only [if_pos h1]
  · simp only [if_neg h1]
    by_cases h2 : b < a
    · rw [if_neg (by omega), if_pos h2]
    · rw [if_pos (by omega), if_neg h2]

/-- C38: exact behaviour of `cmp` on lists of integers, for every pair of lists (any sufficient recursion depth). -/
theorem C38_list_cmp_actual (l1 l2 : List Int) (h1 : ∀ i ∈ l1, InRange i) (h2 : ∀ i ∈ l2, InRange i) (fuel : Nat)
    (hf : l1.length + l2.length + 2 ≤ fuel) :
    cmpVal fuel (.tup (l1.map .num)) (.tup (l2.map .num)) = some (listCmpActual l1 l2) := by
  induction fuel generalizing l1 l2 with
  | zero => omega
  | succ fuel ih =>
    match l1, l2 with
    | [], [] => rfl
    | [], b :: m => rfl
    | a :: l, [] => rfl
    | a :: l, b :: m =>
      obtain ⟨f', rfl⟩ : ∃ f', fuel = f' + 1 := ⟨fuel - 1, by simp at hf; omega⟩
      simp only [List.map_cons, cmpVal]
      have ha := h1 a (by simp)
      have hb := h2 b (by simp)
      rw [numCmp_ints ha hb]
      unfold listCmpActual
      by_cases hab : a < b
      · simp only [if_pos hab]; rw [if_neg (by decide)]
      · by_cases hba : b < a
        · simp only [if_neg hab, if_pos hba]; rw [if_neg (by decide)]
        · have : a = b := by omega
          subst this
          simp only [if_neg hab, if_true]
          have ed : ∀ (x : Int) (t : List Int), (CVal.num x :: List.map CVal.num t).dropLast = ((x :: t).dropLast).map CVal.num := by
            intro x t; rw [List.map_dropLast]; rfl
          rw [ed, ed, ih _ _ (fun i hi => h1 i ((List.dropLast_sublist _).subset hi)) (fun i hi => h2 i ((List.dropLast_sublist _).subset hi))
            (by simp at hf ⊢; omega)]
          congr 1
          match l, m with
          | [], [] => rfl
          | [], y :: m' => simp [listCmpActual, List.dropLast]
          | x :: l', [] => simp [listCmpActual, List.dropLast]
          | x :: l', y :: m' => simp [listCmpActual, List.dropLast]

example : ∀ i ∈ ([1, -7, 2^61] : List Int), InRange i := by decide

/-- C38: when the first elements differ (or exactly one list is empty on the left), `cmp` is the lexicographic order. -/
theorem C38_list_cmp_partial (a b : Int) (l m : List Int) (h1 : ∀ i ∈ a :: l, InRange i) (h2 : ∀ i ∈ b :: m, InRange i)
    (hab : a ≠ b) (fuel : Nat) (hf : l.length + m.length + 4 ≤ fuel) :
    cmpVal fuel (.tup ((a :: l).map .num)) (.tup ((b :: m).map .num)) = some (pnNum (lexCmp (a :: l) (b :: m))) := by
  rw [C38_list_cmp_actual _ _ h1 h2 fuel (by simp; omega)]
  unfold listCmpActual lexCmp
  by_cases h : a < b
  · simp [h]
  · have : b < a := by omega
    simp [h, this]

example : (1 : Int) ≠ 2 := by decide

/-- C38 (finding): `cmp` on lists is not lexicographic: `(1, 2) cmp((1, 3))` is nil, `(1, 2) cmp((1))` is 0, and
any two lists of equal length with the same first element compare as nil. -/
theorem C38_list_cmp_refuted :
    cmpVal 9 (.tup [.num 1, .num 2]) (.tup [.num 1, .num 3]) = some PN_NIL ∧ lexCmp [1, 2] [1, 3] = -1 ∧
    cmpVal 9 (.tup [.num 1, .num 2]) (.tup [.num 1]) = some (pnNum 0) ∧ lexCmp [1, 2] [1] = 1 := by
  refine ⟨?_, by decide, ?_, by decide⟩
  · exact C38_list_cmp_actual [1, 2] [1, 3] (by decide) (by decide) 9 (by decide)
  · exact C38_list_cmp_actual [1, 2] [1] (by decide) (by decide) 9 (by decide)

/-- C38 (finding): `cmp` of booleans and nil returns raw C integers: equal values give nil instead of 0, and
`true cmp(false)` gives the integer 0 instead of 1; only `false cmp(true)` gives -1. -/
theorem C38_bool_nil_refuted (fuel : Nat) :
    cmpVal (fuel+1) (.bool true) (.bool true) = some PN_NIL ∧ cmpVal (fuel+1) (.bool false) (.bool false) = some PN_NIL ∧
    cmpVal (fuel+1) .nil .nil = some PN_NIL ∧ cmpVal (fuel+1) (.bool true) (.bool false) = some (pnNum 0) ∧
    cmpVal (fuel+1) (.bool false) (.bool true) = some (pnNum (-1)) := by
  refine ⟨rfl, rfl, rfl, ?_, ?_⟩ <;> simp [cmpVal, boolBoolCmp] <;> decide

/-- C38: mixed comparisons of a boolean or nil with an integer follow the numeric values 1, 0 and 0. -/
theorem C38_mixed (b : Bool) (i : Int) (hi : InRange i) (fuel : Nat) :
    cmpVal (fuel+1) (.bool b) (.num i) = some (pnNum (cmpInt (if b then 1 else 0) i)) ∧
    cmpVal (fuel+1) .nil (.num i) = some (pnNum (cmpInt 0 i)) := by
  have z : PN_ZERO = pnNum 0 := by decide
  have key : ∀ a : Int, InRange a → numCmp (pnNum a) (pnNum i) = pnNum (cmpInt a i) := by
    intro a ha
    rw [numCmp_ints ha hi]
    unfold cmpInt
    by_cases h1 : a < i
    · rw [if_pos h1, if_pos h1]
    · rw [if_neg h1, if_neg h1]
      by_cases h2 : i < a
      · rw [if_pos h2, if_neg (by omega)]
      · rw [if_neg h2, if_pos (by omega)]; exact z
  refine ⟨?_, ?_⟩
  · simp only [cmpVal]
    rw [key _ (by cases b <;> decide)]
  · simp only [cmpVal]
    rw [z, key 0 (by decide)]

example : InRange (-3) := by decide

end Potion.Props
