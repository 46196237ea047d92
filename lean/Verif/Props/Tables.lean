import Verif.Proof.Table
import Verif.Proof.KhashLayout
import Verif.Model.Word
import Verif.Proof.Number
/-! Properties C05-C09, C39, C40, C44, C45: tables. -/
namespace Potion.Props
open Potion Spec
variable {K V : Type} [DecidableEq K]

/-! ### C05 -/

/-- C05: whatever the key type, hash function and history of puts and removes, the history runs to completion and a
lookup of any key answers with the latest put not followed by a remove, or nil. -/
theorem C05_table_is_map (hash : K → Nat) (ops : List (TOp K V)) (k : K) :
    ∃ h, KH.run hash (KH.new : KH K V) ops = some h ∧ h.at hash k = some (latest ops k) := by
  obtain ⟨h, hr, w, hrep⟩ := run_from hash ops
  refine ⟨h, hr, ?_⟩
  obtain ⟨o, ho, hv⟩ := w.at_spec k
  rw [ho]
  congr 1
  cases hl : latest ops k with
  | none =>
    cases o with
    | none => rfl
    | some v => have := (hrep k v).2 ((hv v).1 rfl); rw [hl] at this; cases this
  | some v => exact (hv v).2 ((hrep k v).1 hl)

/-- A history with two colliding keys, an overwrite, a deletion and a growth step. -/
example : (∃ h, KH.run (fun _ : Nat => 1) (KH.new : KH Nat Nat)
      [.put 1 10, .put 2 20, .put 3 30, .remove 2, .put 4 40, .put 3 31] = some h ∧ h.nb = 8 ∧
      h.at (fun _ => 1) 3 = some (some 31) ∧ h.at (fun _ => 1) 2 = some none) := by
  refine ⟨_, rfl, ?_, ?_, ?_⟩ <;> decide

/-! ### C06 -/

/-- C06: after any history, the enumeration (keys, values, each, map, string all walk `entries`) lists every live
association exactly once and nothing else, and `length` is its length — which is also the number of cells `keys`,
`values` and `map` allocate for their result, so their writes fill it exactly. -/
theorem C06_enumeration (hash : K → Nat) (ops : List (TOp K V)) :
    ∃ h, KH.run hash (KH.new : KH K V) ops = some h ∧
      (∀ k v, (k, v) ∈ h.entries ↔ latest ops k = some v) ∧
      h.keys.Nodup ∧ (∀ k, k ∈ h.keys ↔ latest ops k ≠ none) ∧
      h.length = h.keys.length ∧ h.length = h.values.length ∧ h.keys.zip h.values = h.entries := by
  obtain ⟨h, hr, w, hrep⟩ := run_from hash ops
  have hmem : ∀ k v, (k, v) ∈ h.entries ↔ latest ops k = some v := by
    intro k v; rw [mem_entries w, hrep]
  refine ⟨h, hr, hmem, keys_nodup w, ?_, ?_, ?_, ?_⟩
  · intro k
    unfold KH.keys
    rw [List.mem_map]
    constructor
    · rintro ⟨⟨k', v⟩, hm, rfl⟩
      rw [(hmem _ _).1 hm]; simp
    · intro hne
      obtain ⟨v, hv⟩ := Option.ne_none_iff_exists'.1 hne
      exact ⟨(k, v), (hmem k v).2 hv, rfl⟩
  · simp [KH.length, KH.keys, entries_length w]
  · simp [KH.length, KH.values, entries_length w]
  · unfold KH.keys KH.values
    rw [List.zip_map']; simp

example : ∃ h, KH.run (fun k : Nat => k) (KH.new : KH Nat Nat) [.put 5 1, .put 9 2, .remove 5, .put 9 3] = some h ∧
    h.length = 1 ∧ h.entries = [(9, 3)] := by
  refine ⟨_, rfl, ?_, ?_⟩ <;> decide

/-! ### C07 -/

/-- The probe sequence a key follows in a table of `n` buckets, as the code computes it. -/
def probes (n h : Nat) : Nat → Nat
  | 0 => probe0 n h
  | t+1 => probeNext n (probeInc n h) (probes n h t)

omit [DecidableEq K] in
theorem probes_eq_seq {n : Nat} (hn : ∃ e, n = 2^e) (h t : Nat) : probes n h t = seq n h t := by
  induction t with
  | zero => exact probe0_eq hn h
  | succ t ih => rw [probes, ih, probeNext_seq hn]

/-- C07: after any history (any number of deletions included) every key's probe sequence reaches a never-used bucket
within `n_buckets` steps; every lookup, put and remove then completes, each probe loop in at most `n_buckets` rounds
(the loops' fuel). -/
theorem C07_termination (hash : K → Nat) (ops : List (TOp K V)) :
    ∃ h, KH.run hash (KH.new : KH K V) ops = some h ∧
      (h.nb ≠ 0 → ∀ key, ∃ t, t < h.nb ∧ h.slot (probes h.nb (hash key) t) = .empty) ∧
      (∀ key, ∃ i, h.get hash h.nb key = some i) ∧
      (∀ key v, ∃ h', h.put hash key v = some h') ∧ (∀ key, ∃ h', h.remove hash key = some h') := by
  obtain ⟨h, hr, w, _⟩ := run_from hash ops
  refine ⟨h, hr, ?_, ?_, ?_, ?_⟩
  · intro h0 key
    obtain ⟨i, hi, he⟩ := w.exists_empty h0
    have hp := (w.pow2 h0).1
    obtain ⟨t, ht, hs⟩ := seq_surj hp (hash key) hi
    exact ⟨t, ht, by rw [probes_eq_seq hp, hs]; exact he⟩
  · intro key; obtain ⟨x, hx, _⟩ := w.get_spec key; exact ⟨x, hx⟩
  · intro key v; obtain ⟨x, hx, _⟩ := w.put_spec key v; exact ⟨x, hx⟩
  · intro key; obtain ⟨x, hx, _⟩ := w.remove_spec key; exact ⟨x, hx⟩

example : ∃ h, KH.run (fun k : Nat => k) (KH.new : KH Nat Nat) [.put 1 1, .remove 1, .put 2 2, .remove 2, .put 5 5] = some h ∧
    h.nb ≠ 0 := by refine ⟨_, rfl, ?_⟩; decide

/-! ### C08 -/

/-- C08: growing a table reached by any history doubles its buckets, completes, and keeps exactly the same
associations (and hence answers to lookups), each still stored once, with no tombstone left. -/
theorem C08_rehash (hash : K → Nat) (ops : List (TOp K V)) :
    ∃ h h', KH.run hash (KH.new : KH K V) ops = some h ∧ h.resize hash = some h' ∧
      h'.nb = (if h.nb = 0 then 4 else 2 * h.nb) ∧
      (∀ k v, (k, v) ∈ h'.entries ↔ (k, v) ∈ h.entries) ∧ h'.keys.Nodup ∧ h'.length = h.length ∧
      (∀ k, h'.at hash k = h.at hash k) ∧ h'.nOcc < h'.ub := by
  obtain ⟨h, hr, w, _⟩ := run_from hash ops
  obtain ⟨h', hs, w', hroom, _, hhas, hsz, hnb⟩ := w.resize_spec
  refine ⟨h, h', hr, hs, ?_, ?_, keys_nodup w', hsz, ?_, hroom⟩
  · rw [hnb]; by_cases h0 : h.nb = 0 <;> simp [h0]; omega
  · intro k v; rw [mem_entries w', mem_entries w, hhas]
  · intro k
    obtain ⟨o, ho, hv⟩ := w.at_spec k
    obtain ⟨o', ho', hv'⟩ := w'.at_spec k
    rw [ho, ho']
    congr 1
    cases o with
    | none =>
      cases o' with
      | none => rfl
      | some v => have := (hv v).2 ((hhas k v).1 ((hv' v).1 rfl)); cases this
    | some v => exact (hv' v).2 ((hhas k v).2 ((hv v).1 rfl))

example : ∃ h h', KH.run (fun k : Nat => k) (KH.new : KH Nat Nat) [.put 1 1, .put 5 2, .put 2 3] = some h ∧
    h.resize (fun k => k) = some h' ∧ h.entries = [(2,3),(1,1),(5,2)] ∧ h'.entries = [(1,1),(2,3),(5,2)] ∧ h'.nb = 8 := by
  refine ⟨_, _, rfl, rfl, ?_, ?_, ?_⟩ <;> decide

/-! ### C09 -/

/-- The byte range `[a, a+n)` lies before or after `[b, b+m)`. -/
def Disjoint (a n b m : Nat) : Prop := a + n ≤ b ∨ b + m ≤ a

theorem pair_step {p i j : Nat} (h : i < j) : i * p + p ≤ j * p := by
  have : (i + 1) * p ≤ j * p := Nat.mul_le_mul_right p h
  rw [Nat.add_mul] at this; omega

/-- C09: in a table of `n` buckets with pair size `p` (8-byte key, value directly after it), the key/value pair of a
bucket overlaps no other bucket's pair and no status word; distinct status words do not overlap; all cells lie inside
the `kh_size` bytes allocated; and buckets share a status word exactly when they are in the same group of 16. -/
theorem C09_layout_disjoint (p n i j : Nat) (hi : i < n) (hj : j < n) :
    (i ≠ j → Disjoint (Layout.key p i) p (Layout.key p j) p) ∧
    Disjoint (Layout.flag p i) 4 (Layout.key p j) p ∧
    (i / 16 ≠ j / 16 → Disjoint (Layout.flag p i) 4 (Layout.flag p j) 4) ∧
    (i / 16 = j / 16 → Layout.flag p i = Layout.flag p j) ∧
    Layout.val p i = Layout.key p i + 8 ∧
    Layout.key p i + p ≤ Layout.size p n ∧ Layout.flag p i + 4 ≤ Layout.size p n := by
  unfold Disjoint Layout.key Layout.flag Layout.size Layout.val
  have e16 : ∀ q, q * (4 + 4 * 4 * p) = q * 4 + (q * 16) * p := by intro q; ring
  simp only [e16]
  refine ⟨?_, ?_, ?_, ?_, trivial, ?_, ?_⟩
  · intro hne
    rcases Nat.lt_or_gt_of_ne hne with h | h
    · left; have := pair_step (p := p) h
      have : i / 16 ≤ j / 16 := Nat.div_le_div_right (by omega)
      omega
    · right; have := pair_step (p := p) h
      have : j / 16 ≤ i / 16 := Nat.div_le_div_right (by omega)
      omega
  · by_cases h : i / 16 ≤ j / 16
    · left
      have : (i / 16 * 16) * p ≤ j * p := Nat.mul_le_mul_right p (by omega)
      omega
    · right
      have : (j + 1) * p ≤ (i / 16 * 16) * p := Nat.mul_le_mul_right p (by omega)
      rw [Nat.add_mul] at this; omega
  · intro hne
    rcases Nat.lt_or_gt_of_ne hne with h | h
    · left
      have : (i / 16 * 16) * p ≤ (j / 16 * 16) * p := Nat.mul_le_mul_right p (by omega)
      omega
    · right
      have : (j / 16 * 16) * p ≤ (i / 16 * 16) * p := Nat.mul_le_mul_right p (by omega)
      omega
  · intro h; rw [h]
  · have := pair_step (p := p) hi
    have : i / 16 ≤ n / 16 := Nat.div_le_div_right (by omega)
    omega
  · have : (i / 16 * 16) * p ≤ n * p := Nat.mul_le_mul_right p (by omega)
    omega

example : (17 : Nat) < 32 ∧ (3 : Nat) < 32 ∧ Layout.key 16 17 = 280 ∧ Layout.flag 16 17 = 260 := by decide

/-- C09: for up to 2^27 buckets none of the 32-bit offset computations wraps. -/
theorem C09_offsets_fit (p n i : Nat) (hp : p ≤ 16) (hn : n ≤ 2^27) (hi : i < n) :
    Layout.size p n < 2^32 ∧ Layout.key p i + p < 2^32 ∧ Layout.flag p i + 4 < 2^32 := by
  have hs : Layout.size p n < 2^32 := by
    unfold Layout.size
    have : n * p ≤ 2^27 * 16 := Nat.mul_le_mul hn hp
    omega
  have := C09_layout_disjoint p n i i hi hi
  exact ⟨hs, by omega, by omega⟩

example : (16 : Nat) ≤ 16 ∧ (2^27 : Nat) ≤ 2^27 ∧ (0 : Nat) < 2^27 := by decide

/-- C09: the packed status bits of distinct buckets are independent: each of the three update macros changes the status
of its own bucket as named and leaves the status of every other bucket alone; the initial pattern 0xaa marks every
bucket never-used. -/
theorem C09_status_independent (f : Layout.Flags) (i j : Nat) :
    (Layout.isEmpty (Layout.setBothFalse f i) j = (if j = i then false else Layout.isEmpty f j) ∧
     Layout.isDel (Layout.setBothFalse f i) j = (if j = i then false else Layout.isDel f j)) ∧
    (Layout.isEmpty (Layout.setEmptyFalse f i) j = (if j = i then false else Layout.isEmpty f j) ∧
     Layout.isDel (Layout.setEmptyFalse f i) j = Layout.isDel f j) ∧
    (Layout.isEmpty (Layout.setDelTrue f i) j = Layout.isEmpty f j ∧
     Layout.isDel (Layout.setDelTrue f i) j = (if j = i then true else Layout.isDel f j)) ∧
    Layout.isEither f i = (Layout.isEmpty f i || Layout.isDel f i) ∧
    Layout.isEmpty Layout.allEmpty i = true ∧ Layout.isDel Layout.allEmpty i = false :=
  ⟨Layout.setBoth_spec f i j, Layout.setEmptyFalse_spec f i j, Layout.setDelTrue_spec f i j, Layout.isEither_eq f i,
   Layout.allEmpty_spec i⟩

/-- C09 (finding): when a table grows to 16 or more buckets, the copy loop `j = (n >> 4) + 1; while (j-- > 0) .. =
new_flags[j]` (khash.h:126-128) reads one word past the temporary flag array. The word it fills serves no bucket. -/
theorem C09_resize_flag_read_refuted (n : Nat) (hn : 16 ≤ n) (hpow : n % 16 = 0) :
    (∃ j, j < n / 16 + 1 ∧ ¬ j < Layout.fsize n) ∧
    (∀ j, j < n / 16 + 1 → ¬ j < Layout.fsize n → ∀ i, i < n → Layout.flag 16 i ≠ Layout.flag 16 (j * 16)) := by
  have hf : Layout.fsize n = n / 16 := by unfold Layout.fsize; rw [if_neg (by omega)]
  rw [hf]
  refine ⟨⟨n / 16, by omega, by omega⟩, ?_⟩
  intro j hj hj' i hi
  unfold Layout.flag
  omega

example : (16:Nat) ≤ 32 ∧ 32 % 16 = 0 := by decide

/-! ### C39 -/

/-- C39: `clone` of a table reached by any history has exactly the same associations, and is a value of its own:
any further history on the clone is answered as on the original's contents (and the original is not an argument of it). -/
theorem C39_clone (hash : K → Nat) (ops : List (TOp K V)) :
    ∃ h t, KH.run hash (KH.new : KH K V) ops = some h ∧ h.clone hash = some t ∧
      (∀ k, t.at hash k = some (latest ops k)) ∧ t.length = h.length ∧ t.keys.Nodup ∧
      (∀ k v, (k, v) ∈ t.entries ↔ (k, v) ∈ h.entries) := by
  obtain ⟨h, hr, w, hrep⟩ := run_from hash ops
  obtain ⟨t, ht, wt, hh⟩ := clone_spec w
  have hm : ∀ k v, (k, v) ∈ t.entries ↔ (k, v) ∈ h.entries := by
    intro k v; rw [mem_entries wt, mem_entries w, hh]
  refine ⟨h, t, hr, ht, ?_, ?_, keys_nodup wt, hm⟩
  · intro k
    obtain ⟨o, ho, hv⟩ := wt.at_spec k
    rw [ho]; congr 1
    cases hl : latest ops k with
    | none =>
      cases o with
      | none => rfl
      | some v => have := (hrep k v).2 ((hh k v).1 ((hv v).1 rfl)); rw [hl] at this; cases this
    | some v => exact (hv v).2 ((hh k v).2 ((hrep k v).1 hl))
  · have nd1 : h.entries.Nodup := List.Nodup.of_map _ (keys_nodup w)
    have nd2 : t.entries.Nodup := List.Nodup.of_map _ (keys_nodup wt)
    have : t.entries.Perm h.entries := (List.perm_ext_iff_of_nodup nd2 nd1).2 (fun ⟨k, v⟩ => hm k v)
    have := this.length_eq
    rw [entries_length wt, entries_length w] at this
    exact this

/-- C39: `slice(keys)` keeps exactly the associations of the listed keys. -/
theorem C39_slice (hash : K → Nat) (ops : List (TOp K V)) (ks : List K) :
    ∃ h t, KH.run hash (KH.new : KH K V) ops = some h ∧ h.slice hash ks = some t ∧
      (∀ k v, (k, v) ∈ t.entries ↔ k ∈ ks ∧ latest ops k = some v) ∧ t.keys.Nodup := by
  obtain ⟨h, hr, w, hrep⟩ := run_from hash ops
  obtain ⟨t, ht, wt, hh⟩ := slice_spec w ks
  refine ⟨h, t, hr, ht, ?_, keys_nodup wt⟩
  intro k v; rw [mem_entries wt, hh, hrep]


/-- C44 (finding): filter deletes from the clone by the *original's* bucket numbers. For the two-element table with
integer keys 1 and 3 (real hash function), `filter(k == 3)` returns the association of 1 instead of that of 3. -/
theorem C44_filter_refuted :
    ∃ h t, KH.run numHash (KH.new : KH PN Nat) [.put (pnNum 1) 10, .put (pnNum 3) 30] = some h ∧
      h.filter numHash (fun k _ => k == pnNum 3) = some t ∧ t.entries = [(pnNum 1, 10)] := by
  refine ⟨_, _, rfl, rfl, ?_⟩
  decide +kernel

theorem delAt_slot (t : KH K V) (x j : Nat) :
    (t.delAt x).nb = t.nb ∧ ((t.delAt x).slot j = t.slot j ∨ (j = x ∧ (t.delAt x).slot j = .del)) ∧
    (x ≠ t.nb → (t.slot x).isLive = true → (t.delAt x).slot x = .del) := by
  unfold KH.delAt
  by_cases hx : x ≠ t.nb
  · rw [if_pos hx]
    cases hs : t.slot x with
    | empty => simp [hs, Slot.isLive]
    | del => simp [hs, Slot.isLive]
    | live k v =>
      refine ⟨rfl, ?_, ?_⟩
      · by_cases hj : j = x
        · exact Or.inr ⟨hj, by simp [upd, hj]⟩
        · exact Or.inl (by simp [upd, hj])
      · intros; simp [upd]
  · rw [if_neg hx]; exact ⟨rfl, Or.inl rfl, fun h => absurd h hx⟩

/-- C44: what filter always guarantees when it completes: it only returns associations of the receiver. -/
theorem C44_filter_subset (hash : K → Nat) (ops : List (TOp K V)) (p : K → V → Bool) (h t : KH K V)
    (hr : KH.run hash (KH.new : KH K V) ops = some h) (hf : h.filter hash p = some t) (k : K) (v : V)
    (hm : (k, v) ∈ t.entries) : latest ops k = some v := by
  obtain ⟨h0, hr0, w, hrep⟩ := run_from hash ops
  rw [hr] at hr0; cases hr0
  obtain ⟨t2, ht2, wt, hh⟩ := clone_spec w
  unfold KH.filter at hf
  rw [ht2] at hf
  simp only at hf
  have gen : ∀ (l : List Nat) (a b : KH K V), l.foldlM (fun t i =>
      match h.slot i with
      | .live k v => if p k v then some t else if i ≤ t.nb then some (t.delAt i) else none
      | _ => some t) a = some b → b.nb = a.nb ∧ ∀ i k v, b.slot i = .live k v → a.slot i = .live k v := by
    intro l
    induction l with
    | nil => intro a b hab; simp at hab; subst hab; exact ⟨rfl, fun _ _ _ h => h⟩
    | cons x xs ih =>
      intro a b hab
      rw [List.foldlM_cons] at hab
      cases hc : (match h.slot x with
        | .live k v => if p k v then some a else if x ≤ a.nb then some (a.delAt x) else none
        | _ => some a) with
      | none => simp only [hc] at hab; cases hab
      | some c =>
        simp only [hc] at hab
        obtain ⟨h1, h2⟩ := ih c b hab
        have hca : c = a ∨ c = a.delAt x := by
          split at hc
          · split at hc
            · left; cases hc; rfl
            · split at hc
              · right; cases hc; rfl
              · cases hc
          · left; cases hc; rfl
        rcases hca with rfl | rfl
        · exact ⟨h1, h2⟩
        · refine ⟨by rw [h1, (delAt_slot a x 0).1], ?_⟩
          intro i k v hi
          have h3 := h2 i k v hi
          rcases (delAt_slot a x i).2.1 with h4 | ⟨_, h4⟩
          · rw [← h4]; exact h3
          · rw [h4] at h3; cases h3
  obtain ⟨hnb, hsl⟩ := gen _ _ _ hf
  unfold KH.entries at hm
  simp only [List.mem_filterMap, List.mem_range] at hm
  obtain ⟨i, hi, hit⟩ := hm
  have hlive : t.slot i = .live k v := by
    cases hs : t.slot i <;> rw [hs] at hit <;> simp_all [Slot.item]
  rw [hrep, ← hh]
  exact ⟨i, hsl i k v hlive⟩

/-- C44, the part of filter that holds: if the clone happens to put every association in the bucket it has in the
receiver (e.g. no two keys ever collided), filter returns exactly the associations satisfying the predicate. Missing:
all other tables, for which it is false (`C44_filter_refuted`). -/
theorem C44_filter_partial (hash : K → Nat) (ops : List (TOp K V)) (p : K → V → Bool) (h t2 : KH K V)
    (hr : KH.run hash (KH.new : KH K V) ops = some h) (ht2 : h.clone hash = some t2)
    (hsame : ∀ i k v, h.slot i = .live k v → t2.slot i = .live k v) :
    ∃ t, h.filter hash p = some t ∧ ∀ k v, (k, v) ∈ t.entries ↔ latest ops k = some v ∧ p k v = true := by
  obtain ⟨h0, hr0, w, hrep⟩ := run_from hash ops
  rw [hr] at hr0; cases hr0
  obtain ⟨t2', ht2', wt, hh⟩ := clone_spec w
  rw [ht2] at ht2'; cases ht2'
  unfold KH.filter
  rw [ht2]
  simp only
  have gen : ∀ n, ∃ b, (List.range n).foldlM (fun t i =>
      match h.slot i with
      | .live k v => if p k v then some t else if i ≤ t.nb then some (t.delAt i) else none
      | _ => some t) t2 = some b ∧ b.nb = t2.nb ∧
        ∀ i k v, b.slot i = .live k v ↔ (t2.slot i = .live k v ∧ (i < n → p k v = true)) := by
    intro n
    induction n with
    | zero => exact ⟨t2, rfl, rfl, by simp⟩
    | succ n ih =>
      obtain ⟨b, hb, hnb, hsl⟩ := ih
      rw [List.range_succ, List.foldlM_append, hb]
      simp only [Option.bind_eq_bind, Option.bind_some, List.foldlM_cons, List.foldlM_nil]
      have keep : ∀ i k v, (i = n → t2.slot n = .live k v → p k v = true) →
          ((t2.slot i = .live k v ∧ (i < n → p k v = true)) ↔ (t2.slot i = .live k v ∧ (i < n+1 → p k v = true))) := by
        intro i k v hn
        constructor
        · rintro ⟨h1, h2⟩
          refine ⟨h1, fun h3 => ?_⟩
          by_cases hin : i = n
          · exact hn hin (hin ▸ h1)
          · exact h2 (by omega)
        · rintro ⟨h1, h2⟩; exact ⟨h1, fun h3 => h2 (by omega)⟩
      have hback : ∀ k v, t2.slot n = .live k v → h.slot n = .live k v := by
        intro k v h1
        obtain ⟨j, hj⟩ := (hh k v).1 ⟨n, h1⟩
        have := wt.uniq _ _ _ _ _ h1 (hsame j k v hj)
        rw [this]; exact hj
      cases hs : h.slot n with
      | empty =>
        refine ⟨b, rfl, hnb, ?_⟩
        intro i k v; rw [hsl]; apply keep
        intro _ h2; have := hback k v h2; rw [hs] at this; cases this
      | del =>
        refine ⟨b, rfl, hnb, ?_⟩
        intro i k v; rw [hsl]; apply keep
        intro _ h2; have := hback k v h2; rw [hs] at this; cases this
      | live k0 v0 =>
        have hlt := wt.lt (hsame n k0 v0 hs)
        by_cases hp : p k0 v0 = true
        · refine ⟨b, by simp [hp], hnb, ?_⟩
          intro i k v; rw [hsl]; apply keep
          intro _ h2; have := hback k v h2; rw [hs] at this; cases this; exact hp
        · have hle : n ≤ b.nb := by omega
          refine ⟨b.delAt n, by simp [hp, hle], by rw [(delAt_slot b n 0).1, hnb], ?_⟩
          intro i k v
          by_cases hin : i = n
          · subst hin
            have hbl : b.slot i = .live k0 v0 := by
              rw [hsl]; exact ⟨hsame i k0 v0 hs, fun h => by omega⟩
            have := (delAt_slot b i i).2.2 (by omega) (by rw [hbl]; rfl)
            rw [this]
            constructor
            · intro h1; cases h1
            · rintro ⟨h1, h2⟩
              have h3 := hback k v h1; rw [hs] at h3; cases h3
              exact absurd (h2 (by omega)) hp
          · rcases (delAt_slot b n i).2.1 with h1 | ⟨h1, _⟩
            · rw [h1, hsl]; apply keep; intro h; exact absurd h hin
            · exact absurd h1 hin
  obtain ⟨b, hb, hnb, hsl⟩ := gen h.nb
  refine ⟨b, hb, ?_⟩
  intro k v
  unfold KH.entries
  simp only [List.mem_filterMap, List.mem_range]
  rw [hrep]
  constructor
  · rintro ⟨i, hi, hit⟩
    have hlive : b.slot i = .live k v := by
      cases hs : b.slot i <;> rw [hs] at hit <;> simp_all [Slot.item]
    obtain ⟨h1, h2⟩ := (hsl i k v).1 hlive
    obtain ⟨j, hj⟩ := (hh k v).1 ⟨i, h1⟩
    have := wt.uniq _ _ _ _ _ h1 (hsame j k v hj)
    subst this
    exact ⟨⟨i, hj⟩, h2 (w.lt hj)⟩
  · rintro ⟨⟨i, hi⟩, hp⟩
    have h2 := hsame i k v hi
    have h3 : b.slot i = .live k v := (hsl i k v).2 ⟨h2, fun _ => hp⟩
    exact ⟨i, by rw [hnb]; exact wt.lt h2, by rw [h3]; rfl⟩

/-- Non-vacuity: keys 1 and 2 do not collide, the clone has the same layout, and filter is exact. -/
example : ∃ h t2 t, KH.run numHash (KH.new : KH PN Nat) [.put (pnNum 1) 10, .put (pnNum 2) 20] = some h ∧
    h.clone numHash = some t2 ∧ (∀ i, i < 4 → h.slot i = t2.slot i) ∧
    h.filter numHash (fun k _ => k == pnNum 2) = some t ∧ t.entries = [(pnNum 2, 20)] := by
  refine ⟨_, _, _, rfl, rfl, ?_, rfl, ?_⟩ <;> decide +kernel

/-! ### C40 -/

theorem cast_spec (hash : K → Nat) (num : Nat → K) (B : Nat) (hinj : ∀ i j, i < B → j < B → num i = num j → i = j) (l : List V) :
    ∀ (n : Nat) (h : KH K V), n + l.length ≤ B → WF hash h → (∀ i v, i < B → h.Has (num i) v → i < n) →
      ∃ t, KH.castLoop hash num h n l = some t ∧ WF hash t ∧
        ∀ k v, t.Has k v ↔ h.Has k v ∨ ∃ i, l[i]? = some v ∧ k = num (n + i) := by
  induction l with
  | nil => intro n h _ w _; exact ⟨h, rfl, w, by simp⟩
  | cons x xs ih =>
    intro n h hB w hb
    simp only [List.length_cons] at hB
    obtain ⟨h1, hp, w1, hh1⟩ := w.put_spec (num n) x
    obtain ⟨t, ht, wt, hh⟩ := ih (n+1) h1 (by omega) w1 (by
      intro i v hiB hi
      rcases (hh1 _ _).1 hi with ⟨h2, _⟩ | ⟨_, h2⟩
      · have := hinj _ _ hiB (by omega) h2; omega
      · have := hb _ _ hiB h2; omega)
    refine ⟨t, by simp only [KH.castLoop, hp, ht], wt, ?_⟩
    intro k v
    rw [hh, hh1]
    constructor
    · rintro ((⟨rfl, rfl⟩ | ⟨_, h2⟩) | ⟨i, hi, rfl⟩)
      · exact Or.inr ⟨0, rfl, rfl⟩
      · exact Or.inl h2
      · exact Or.inr ⟨i+1, hi, by congr 1; omega⟩
    · rintro (h2 | ⟨i, hi, rfl⟩)
      · refine Or.inl (Or.inr ⟨?_, h2⟩)
        rintro rfl
        have := hb _ _ (by omega) h2; omega
      · cases i with
        | zero => simp at hi; exact Or.inl (Or.inl ⟨rfl, hi.symm⟩)
        | succ i => exact Or.inr ⟨i, hi, by congr 1; omega⟩

omit [DecidableEq K] in
theorem pnNum_nat_inj (i j : Nat) (hi : i < 2^62) (hj : j < 2^62) (h : pnNum (i : Int) = pnNum (j : Int)) : i = j := by
  have h1 : pnInt (pnNum (i : Int)) = i := pnInt_pnNum_of_fits (by unfold Fits63; omega)
  have h2 : pnInt (pnNum (j : Int)) = j := pnInt_pnNum_of_fits (by unfold Fits63; omega)
  rw [h, h2] at h1; omega

/-- C40: casting a list gives a table whose entry under the integer `i` is the list's element `i`, absent for `i` past
the end, and with no other keys at all. `hash` is the hash of a key word (arbitrary). -/
theorem C40_cast (hash : PN → Nat) (l : List V) (hl : l.length ≤ 2^62) :
    ∃ t, KH.cast hash (fun i => pnNum (i : Int)) l = some t ∧
      (∀ i : Nat, i < 2^62 → t.at hash (pnNum (i : Int)) = some l[i]?) ∧
      (∀ w v, (w, v) ∈ t.entries ↔ ∃ i : Nat, l[i]? = some v ∧ w = pnNum (i : Int)) ∧ t.length = l.length := by
  obtain ⟨t, ht, wt, hh⟩ := cast_spec hash (fun i : Nat => pnNum (i : Int)) (2^62) pnNum_nat_inj l 0 KH.new (by omega)
    (WF.new hash) (by rintro i v _ ⟨j, hj⟩; cases hj)
  have hhas : ∀ w v, t.Has w v ↔ ∃ i : Nat, l[i]? = some v ∧ w = pnNum (i : Int) := by
    intro w v
    rw [hh]
    constructor
    · rintro (⟨j, hj⟩ | ⟨i, hi, h1⟩)
      · cases hj
      · exact ⟨i, hi, by simpa using h1⟩
    · rintro ⟨i, hi, h1⟩; exact Or.inr ⟨i, hi, by simpa using h1⟩
  refine ⟨t, ht, ?_, ?_, ?_⟩
  · intro i hi
    obtain ⟨o, ho, hv⟩ := wt.at_spec (pnNum (i : Int))
    rw [ho]; congr 1
    have key : ∀ v, o = some v ↔ l[i]? = some v := by
      intro v
      rw [hv, hhas]
      constructor
      · rintro ⟨j, hj, he⟩
        have hjl : j < l.length := by
          rw [List.getElem?_eq_some_iff] at hj; exact hj.1
        have := pnNum_nat_inj i j hi (by omega) he
        subst this; exact hj
      · intro h1; exact ⟨i, h1, rfl⟩
    cases hl : l[i]? with
    | none =>
      cases o with
      | none => rfl
      | some v => have := (key v).1 rfl; rw [hl] at this; cases this
    | some v => exact (key v).2 hl
  · intro w v; rw [mem_entries wt, hhas]
  · have nd2 : t.entries.Nodup := List.Nodup.of_map _ (keys_nodup wt)
    have ndk := keys_nodup wt
    have hk : t.keys.Perm ((List.range l.length).map fun i : Nat => pnNum (i : Int)) := by
      apply (List.perm_ext_iff_of_nodup ndk ?_).2
      · intro w
        unfold KH.keys
        simp only [List.mem_map, List.mem_range, Prod.exists, exists_and_right, exists_eq_right]
        constructor
        · rintro ⟨v, hv⟩
          rw [mem_entries wt, hhas] at hv
          obtain ⟨i, hi, rfl⟩ := hv
          rw [List.getElem?_eq_some_iff] at hi
          exact ⟨i, hi.1, rfl⟩
        · rintro ⟨i, hi, rfl⟩
          exact ⟨l[i], by rw [mem_entries wt, hhas]; exact ⟨i, by simp [hi], rfl⟩⟩
      · rw [List.Nodup, List.pairwise_map]
        apply List.Pairwise.imp_of_mem (R := fun a b : Nat => a ≠ b)
        · intro a b ha hb hab he
          rw [List.mem_range] at ha hb
          exact hab (pnNum_nat_inj a b (by omega) (by omega) he)
        · exact List.nodup_range
    have h1 := hk.length_eq
    simp [KH.keys, entries_length wt] at h1
    exact h1

/-- C40: assigning beyond the end of a list (`potion_table_set`: cast, then put) yields a table holding the list's
elements under their indices plus the assigned value under its key. -/
theorem C40_put_past_end (hash : PN → Nat) (l : List V) (hl : l.length ≤ 2^62) (key : PN) (x : V) :
    ∃ t t', KH.cast hash (fun i => pnNum (i : Int)) l = some t ∧ t.put hash key x = some t' ∧
      t'.at hash key = some (some x) ∧
      (∀ i : Nat, i < 2^62 → pnNum (i : Int) ≠ key → t'.at hash (pnNum (i : Int)) = some l[i]?) := by
  obtain ⟨t, ht, wt, _⟩ := cast_spec hash (fun i : Nat => pnNum (i : Int)) (2^62) pnNum_nat_inj l 0 KH.new (by omega)
    (WF.new hash) (by rintro i v _ ⟨j, hj⟩; cases hj)
  obtain ⟨t0, ht0, hat, _⟩ := C40_cast hash l hl
  have : t0 = t := by
    have h1 : KH.cast hash (fun i : Nat => pnNum (i : Int)) l = some t := ht
    rw [h1] at ht0; cases ht0; rfl
  subst this
  obtain ⟨t', hp, w', hh⟩ := wt.put_spec key x
  refine ⟨t0, t', ht, hp, ?_, ?_⟩
  · obtain ⟨o, ho, hv⟩ := w'.at_spec key
    rw [ho, (hv x).2 ((hh _ _).2 (Or.inl ⟨rfl, rfl⟩))]
  · intro i hi hne
    rw [← hat i hi]
    obtain ⟨o, ho, hv⟩ := w'.at_spec (pnNum (i : Int))
    obtain ⟨o', ho', hv'⟩ := wt.at_spec (pnNum (i : Int))
    rw [ho, ho']; congr 1
    have key' : ∀ v, o = some v ↔ o' = some v := by
      intro v
      rw [hv, hv', hh]
      constructor
      · rintro (⟨h1, _⟩ | ⟨_, h1⟩)
        · exact absurd h1 hne
        · exact h1
      · intro h1; exact Or.inr ⟨hne, h1⟩
    exact Option.ext key'

example : ∃ t t', KH.cast numHash (fun i => pnNum (i : Int)) [10, 20] = some t ∧ t.put numHash (pnNum 7) 99 = some t' ∧
    t'.length = 3 ∧ t'.at numHash (pnNum 1) = some (some 20) := by
  refine ⟨_, _, rfl, rfl, ?_, ?_⟩ <;> decide +kernel

/-! ### C45 -/

/-- An emptied table of `m` buckets whose first `j` buckets are tombstones. -/
def Tomb (V : Type) (m j : Nat) : KH K V :=
  { nb := m, size := 0, nOcc := j, ub := upperBound m, slot := fun i => if i < j then .del else .empty }

theorem tomb_step (hash : K → Nat) (key : K) (v : V) (e j : Nat) (he : 2 ≤ e) (hj : j < upperBound (2^e)) (hk : hash key = j) :
    KH.run hash (Tomb V (2^e) j : KH K V) [.put key v, .remove key] = some (Tomb V (2^e) (j+1)) := by
  have h4 : 4 ≤ 2^e := by
    calc 4 = 2^2 := rfl
      _ ≤ 2^e := Nat.pow_le_pow_right (by omega) he
  have hub := upperBound_lt h4
  have hp0 : probe0 (2^e) j = j := by
    rw [probe0_eq ⟨e, rfl⟩]; unfold seq
    rw [Nat.zero_mul, Nat.add_zero]; exact Nat.mod_eq_of_lt (by omega)
  have hf : (Tomb V (2^e) j : KH K V).putFind hash (2^e) key = some j := by
    simp [KH.putFind, hk, Tomb, hp0]
  have hput : (Tomb V (2^e) j : KH K V).put hash key v =
      some { nb := 2^e, size := 1, nOcc := j+1, ub := upperBound (2^e),
             slot := upd (fun i => if i < j then .del else .empty) j (.live key v) } := by
    unfold KH.put
    rw [if_neg (by simp only [Tomb]; omega)]
    simp only
    have hnb : (Tomb V (2^e) j : KH K V).nb = 2^e := rfl
    rw [hnb, hf]
    simp [KH.putAt, Tomb]
  simp only [KH.run, KH.apply, hput]
  have hget : KH.get hash (2^e) ({ nb := 2^e, size := 1, nOcc := j+1, ub := upperBound (2^e), slot := upd (fun i => if i < j then .del else .empty) j (.live key v) } : KH K V) key = some j := by
    unfold KH.get
    rw [if_pos (by simp)]
    simp only [hk, hp0]
    obtain ⟨f, hf'⟩ : ∃ f, 2^e = f + 1 := ⟨2^e - 1, by omega⟩
    conv => lhs; arg 5; rw [hf']
    simp [KH.getLoop, upd]
  unfold KH.remove
  simp only [hget]
  rw [if_pos (by omega)]
  simp only [KH.delAt]
  rw [if_pos (by omega)]
  simp only [upd_same]
  simp only [Tomb, Option.some.injEq, KH.mk.injEq, true_and]
  funext i
  simp only [upd]
  by_cases h1 : i = j
  · simp [h1]
  · simp only [if_neg h1]
    by_cases h2 : i < j
    · rw [if_pos h2, if_pos (by omega)]
    · rw [if_neg h2, if_neg (by omega)]

theorem tomb_grow (hash : K → Nat) (key : K) (v : V) (e : Nat) (he : 2 ≤ e) (hk : hash key = 0) :
    KH.run hash (Tomb V (2^e) (upperBound (2^e)) : KH K V) [.put key v, .remove key] =
      KH.run hash (Tomb V (2^(e+1)) 0 : KH K V) [.put key v, .remove key] := by
  have hrl : ∀ c j (r : Rehash K V), (∀ i, r.oldLive i = false) → rehashLoop hash (2^e) (2^e*2) c j r = some r := by
    intro c
    induction c with
    | zero => intros; rfl
    | succ c ih => intro j r hr; simp only [rehashLoop, hr]; simp; exact ih _ _ hr
  have h4 : 4 ≤ 2^e := by
    calc 4 = 2^2 := rfl
      _ ≤ 2^e := Nat.pow_le_pow_right (by omega) he
  have hres : (Tomb V (2^e) (upperBound (2^e)) : KH K V).resize hash = some (Tomb V (2^(e+1)) 0) := by
    unfold KH.resize
    have hnb : (Tomb V (2^e) (upperBound (2^e)) : KH K V).nb = 2^e := rfl
    have hsz : (Tomb V (2^e) (upperBound (2^e)) : KH K V).size = 0 := rfl
    simp only [hnb, hsz]
    have hne : (2^e ≠ 0) = True := by simp
    simp only [hne, if_true]
    rw [if_neg (by unfold upperBound; omega), hrl]
    · simp only [Tomb, Option.some.injEq, KH.mk.injEq, true_and]
      refine ⟨by rw [Nat.pow_succ], by rw [Nat.pow_succ], ?_⟩
      funext i; simp
    · intro i; simp only [Tomb]; split <;> rfl
  simp only [KH.run, KH.apply]
  congr 1
  unfold KH.put
  rw [if_pos (by simp [Tomb]), hres]
  rw [if_neg (by simp [Tomb, upperBound]; omega)]

/-- C45 (finding): table storage is not bounded by the contents. With any hash function whose values 0..B-1 are each
taken by some key, for every power of two up to B there is a history that alternates "put one key, remove it again" —
so the table never holds more than one association — after which the table is empty but has at least that many
buckets: tombstones count towards the load and every resize doubles. -/
theorem C45_storage_bounded_refuted (hash : K → Nat) (keyOf : Nat → K) (B : Nat) (v : V)
    (hkey : ∀ i, i < B → hash (keyOf i) = i) (e : Nat) (he : 2 ≤ e) (hB : 2^e ≤ B) :
    ∃ ks : List K, ∃ h, KH.run hash (KH.new : KH K V) (ks.flatMap fun k => [.put k v, .remove k]) = some h ∧
      h.length = 0 ∧ h.nb = 2^e := by
  have reach : ∀ e, 2 ≤ e → 2^e ≤ B → ∃ k0 : K, hash k0 = 0 ∧ ∃ ks : List K,
      KH.run hash (KH.new : KH K V) (ks.flatMap fun k => [.put k v, .remove k]) = some (Tomb V (2^e) 1) := by
    intro e he
    induction e with
    | zero => omega
    | succ e ih =>
      intro hB
      have hBpos : 0 < B := Nat.lt_of_lt_of_le (Nat.pos_of_ne_zero (by simp)) hB
      refine ⟨keyOf 0, hkey 0 hBpos, ?_⟩
      by_cases h1 : e = 1
      · subst h1
        refine ⟨[keyOf 0], ?_⟩
        have hres : (KH.new : KH K V).resize hash = some (Tomb V (2^2) 0) := by
          simp only [KH.resize, KH.new, rehashLoop, Tomb]
          simp [upperBound]
        have := tomb_step hash (keyOf 0) v 2 0 (by omega) (by simp [upperBound]) (hkey 0 hBpos)
        rw [show (1 + 1 : Nat) = 2 from rfl, show (1 : Nat) = 0 + 1 from rfl, ← this]
        have hput : (KH.new : KH K V).put hash (keyOf 0) v = (Tomb V (2^2) 0 : KH K V).put hash (keyOf 0) v := by
          unfold KH.put
          rw [if_pos (by simp [KH.new]), hres, if_neg (by simp [Tomb, upperBound])]
        simp only [List.flatMap_cons, List.flatMap_nil, List.append_nil, KH.run, KH.apply, hput]
      · have hle : 2^e ≤ B := Nat.le_trans (Nat.pow_le_pow_right (by omega) (by omega)) hB
        obtain ⟨k0, hk0, ks, hks⟩ := ih (by omega) hle
        have h4 : 4 ≤ 2^e := by
          calc 4 = 2^2 := rfl
            _ ≤ 2^e := Nat.pow_le_pow_right (by omega) (by omega)
        -- fill up from one tombstone
        have hub := upperBound_lt h4
        have more : ∀ d, 1 + d ≤ upperBound (2^e) → ∃ ks : List K,
            KH.run hash (Tomb V (2^e) 1 : KH K V) (ks.flatMap fun k => [.put k v, .remove k]) = some (Tomb V (2^e) (1+d)) := by
          intro d
          induction d with
          | zero => intro _; exact ⟨[], rfl⟩
          | succ d ihd =>
            intro hd
            obtain ⟨ks, hks⟩ := ihd (by omega)
            refine ⟨ks ++ [keyOf (1+d)], ?_⟩
            rw [List.flatMap_append, run_append, hks]
            simp only [Option.bind_some, List.flatMap_cons, List.flatMap_nil, List.append_nil]
            exact tomb_step hash (keyOf (1+d)) v e (1+d) (by omega) (by omega) (hkey (1+d) (by omega))
        obtain ⟨ks2, hks2⟩ := more (upperBound (2^e) - 1) (by unfold upperBound; omega)
        have heq : 1 + (upperBound (2^e) - 1) = upperBound (2^e) := by unfold upperBound; omega
        rw [heq] at hks2
        refine ⟨ks ++ ks2 ++ [keyOf 0], ?_⟩
        rw [List.flatMap_append, List.flatMap_append, run_append, run_append, hks]
        simp only [Option.bind_some]
        rw [hks2]
        simp only [Option.bind_some, List.flatMap_cons, List.flatMap_nil, List.append_nil]
        rw [tomb_grow hash (keyOf 0) v e (by omega) (hkey 0 hBpos)]
        exact tomb_step hash (keyOf 0) v (e+1) 0 (by omega) (by
          have : 2^(e+1) = 2^e*2 := Nat.pow_succ ..
          unfold upperBound; omega) (hkey 0 hBpos)
  obtain ⟨_, _, ks, hks⟩ := reach e he hB
  exact ⟨ks, _, hks, rfl, rfl⟩

/-- The hypothesis is met by the real hash on integer keys: `PN_NUM(x * 2^32)` reaches every value below 2^31. -/
theorem numHash_reaches (i : Nat) (hi : i < 2^31) :
    numHash ((BitVec.ofNat 64 (i ^^^ 2049) <<< 33) + 1#64) = i := by
  unfold numHash
  have t1 : ∀ n, Nat.testBit 1 n = decide (n = 0) := by
    intro n; rw [show (1:Nat) = 2^0 from rfl, Nat.testBit_two_pow]; simp [eq_comm]
  have hx : i ^^^ 2049 < 2^31 := Nat.xor_lt_two_pow hi (by omega)
  have h0 : (BitVec.ofNat 64 (i ^^^ 2049) <<< 33) + 1#64 = (BitVec.ofNat 64 (i ^^^ 2049) <<< 33) ||| 1#64 := by
    apply BitVec.add_eq_or_of_and_eq_zero
    apply BitVec.eq_of_getLsbD_eq
    intro k hk
    simp only [BitVec.getLsbD_and, BitVec.getLsbD_shiftLeft, BitVec.getLsbD_one, BitVec.getLsbD_zero]
    by_cases h : k < 33 <;> simp [h]
    omega
  rw [h0]
  have : (((BitVec.ofNat 64 (i ^^^ 2049) <<< 33 ||| 1#64) >>> 33) ^^^ (BitVec.ofNat 64 (i ^^^ 2049) <<< 33 ||| 1#64) ^^^
      ((BitVec.ofNat 64 (i ^^^ 2049) <<< 33 ||| 1#64) <<< 11)).setWidth 32 = BitVec.ofNat 32 i := by
    apply BitVec.eq_of_getLsbD_eq
    intro k hk
    simp only [BitVec.getLsbD_setWidth, BitVec.getLsbD_xor, BitVec.getLsbD_ushiftRight, BitVec.getLsbD_or,
      BitVec.getLsbD_shiftLeft, BitVec.getLsbD_one, BitVec.getLsbD_ofNat, Nat.testBit_xor]
    have e1 : (Nat.testBit 2049 (33 + k - 33)) = (decide (k = 0) || decide (k = 11)) := by
      rw [show 33 + k - 33 = k by omega]
      have : ∀ k : Fin 32, Nat.testBit 2049 k = (decide (k.val = 0) || decide (k.val = 11)) := by decide
      exact this ⟨k, hk⟩
    rw [e1, show 33 + k - 33 = k by omega]
    have hb : k = 31 → i.testBit k = false := by
      rintro rfl; exact Nat.testBit_lt_two_pow hi
    by_cases h31 : k = 31
    · subst h31
      have := hb rfl
      simp [this, t1]
    · have c1 : 33 + k < 64 := by omega
      have c2 : k < 33 := by omega
      have c3 : k - 11 < 33 := by omega
      have c4 : k < 64 := by omega
      have c5 : ¬ (33 + k < 33) := by omega
      have c6 : k < 64 := by omega
      simp only [hk, c1, c2, c3, c4, c5, decide_true, decide_false, Bool.true_and, Bool.not_true, Bool.false_and, Bool.not_false, Bool.false_or]
      by_cases hk0 : k = 0
      · subst hk0; simp [t1]
      · by_cases hk11 : k = 11
        · subst hk11; simp [t1]
        · have c7 : ¬ (33 + k = 0) := by omega
          have c8 : k < 11 ∨ ¬ (k - 11 = 0) := by omega
          rcases c8 with c8 | c8
          · simp [hk0, hk11, c8, t1]
          · simp [hk0, hk11, c8, t1]
  rw [this, BitVec.toNat_ofNat, Nat.mod_eq_of_lt (by omega)]

example : ∃ ks : List PN, ∃ h, KH.run numHash (KH.new : KH PN Nat) (ks.flatMap fun k => [.put k 0, .remove k]) = some h ∧
    h.length = 0 ∧ h.nb = 2^30 :=
  C45_storage_bounded_refuted numHash _ (2^31) 0 numHash_reaches 30 (by omega) (by omega)

/-- Number of puts in a history. -/
def puts : List (TOp K V) → Nat
  | [] => 0
  | .put _ _ :: ops => puts ops + 1
  | .remove _ :: ops => puts ops

omit [DecidableEq K] in
theorem putAt_counts (h : KH K V) (x : Nat) (key : K) (v : V) :
    (h.putAt x key v).nb = h.nb ∧ (h.putAt x key v).nOcc ≤ h.nOcc + 1 := by
  unfold KH.putAt; split <;> simp

omit [DecidableEq K] in
theorem delAt_counts (h : KH K V) (x : Nat) : (h.delAt x).nb = h.nb ∧ (h.delAt x).nOcc = h.nOcc := by
  unfold KH.delAt; split
  · split <;> simp
  · simp

omit [DecidableEq K] in
theorem puts_snoc (ops : List (TOp K V)) (op : TOp K V) :
    puts (ops ++ [op]) = puts ops + (match op with | .put _ _ => 1 | .remove _ => 0) := by
  induction ops with
  | nil => cases op <;> rfl
  | cons o os ih => cases o <;> simp [puts, ih] <;> omega

/-- C45, the bound that does hold: buckets are bounded by the number of puts ever made (not by the contents). Missing:
a bound in terms of live associations, which is false (`C45_storage_bounded_refuted`). -/
theorem C45_storage_partial (hash : K → Nat) (ops : List (TOp K V)) :
    ∃ h, KH.run hash (KH.new : KH K V) ops = some h ∧ h.nb ≤ 4 + 4 * puts ops := by
  have main : ∀ n (ops : List (TOp K V)), ops.length = n →
      ∃ h, KH.run hash (KH.new : KH K V) ops = some h ∧ WF hash h ∧ h.nb ≤ 4 + 4 * puts ops ∧ h.nOcc ≤ puts ops := by
    intro n
    induction n with
    | zero =>
      intro ops hn
      have : ops = [] := List.eq_nil_of_length_eq_zero hn
      subst this
      exact ⟨_, rfl, WF.new hash, by simp [KH.new], by simp [KH.new]⟩
    | succ n ih =>
      intro ops hn
      obtain ⟨pre, op, rfl⟩ : ∃ pre op, ops = pre ++ [op] := by
        have hne : ops ≠ [] := by intro h; rw [h] at hn; cases hn
        exact ⟨ops.dropLast, ops.getLast hne, (List.dropLast_concat_getLast hne).symm⟩
      obtain ⟨h, hr, w, hnb, hocc⟩ := ih pre (by simp at hn; omega)
      rw [run_append, hr, puts_snoc]
      simp only [Option.bind_some, KH.run]
      cases op with
      | put key v =>
        obtain ⟨h', hp, w', _⟩ := w.put_spec key v
        refine ⟨h', by simp only [KH.apply, hp], w', ?_⟩
        unfold KH.put at hp
        by_cases hfull : h.nOcc ≥ h.ub
        · obtain ⟨h1, hr1, w1, hroom, hnz, _, hsz, hnb1⟩ := w.resize_spec
          rw [if_pos hfull, hr1] at hp
          simp only at hp
          split at hp
          · cases hp
          · rename_i x _
            cases hp
            have hc := putAt_counts h1 x key v
            have h1occ : h1.nOcc ≤ puts pre := by
              -- after a resize the occupied count is the number of live keys
              unfold KH.resize at hr1
              simp only at hr1
              have hlt : ¬ h.size ≥ upperBound (if h.nb ≠ 0 then h.nb * 2 else 4) := by
                intro hge
                rw [if_pos hge] at hr1
                cases hr1
                rw [hnb1] at *
                by_cases h0 : h.nb ≠ 0
                · simp only [if_pos h0] at hnb1; omega
                · exact h0 hnz
              rw [if_neg hlt] at hr1
              split at hr1
              · cases hr1
              · cases hr1
                simp only
                have := w.size_le_occ
                omega
            simp only
            rw [hc.1, hnb1]
            have hub := w.ub
            refine ⟨?_, by omega⟩
            by_cases h0 : h.nb ≠ 0
            · rw [if_pos h0]
              unfold upperBound at hub; omega
            · rw [if_neg h0]; omega
        · rw [if_neg hfull] at hp
          simp only at hp
          split at hp
          · cases hp
          · rename_i x _
            cases hp
            have hc := putAt_counts h x key v
            simp only
            omega
      | remove key =>
        obtain ⟨h', hp, w', _⟩ := w.remove_spec key
        refine ⟨h', by simp only [KH.apply, hp], w', ?_⟩
        unfold KH.remove at hp
        split at hp
        · cases hp
        · split at hp
          · cases hp
            rename_i k _ _ _
            have hc := delAt_counts h k
            simp only; omega
          · cases hp; simp only; omega
  obtain ⟨h, hr, _, hb, _⟩ := main ops.length ops rfl
  exact ⟨h, hr, hb⟩

end Potion.Props
