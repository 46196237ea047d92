import Verif.Spec.Alloc
import Mathlib.Order.Lattice
import Mathlib.Order.Basic
/-! C35: allocation. -/
namespace Potion.Alloc

theorem align_ge (o x : Nat) (ho : 0 < o) (hx : 0 < x) : o ≤ align o x ∧ align o x < o + x ∧ align o x % x = 0 := by
  unfold align
  have h := Nat.div_add_mod (o - 1) x
  have h2 := Nat.mod_lt (o - 1) hx
  have e : ((o - 1) / x + 1) * x = x * ((o - 1) / x) + x := by rw [Nat.add_mul, Nat.mul_comm, Nat.one_mul]
  refine ⟨by omega, by omega, Nat.mul_mod_left _ _⟩

theorem blockSize_facts (siz : Nat) : siz ≤ blockSize siz ∧ 16 ≤ blockSize siz ∧ blockSize siz % 8 = 0 ∧
    blockSize siz < siz + 24 := by
  unfold blockSize
  split
  · have := align_ge 16 8 (by omega) (by omega); omega
  · have := align_ge siz 8 (by omega) (by omega); omega

theorem suggest_ge (need old : Nat) : minBirth ≤ suggest need old := by
  unfold suggest
  have : ∀ s, minBirth ≤ s → minBirth ≤ align s minBirth := fun s hs =>
    Nat.le_trans hs (align_ge s minBirth (Nat.lt_of_lt_of_le (by decide) hs) (by decide)).1
  apply this
  have hm : minBirth ≤ birthSize := by decide
  repeat' split
  all_goals omega

/-- Between `cur` and the store list there is always room for one more entry, and nothing overlaps. -/
structure Good (b : Birth) : Prop where
  lo : b.lo % 8 = 0
  cur : b.cur % 8 = 0
  sp : b.sp % 8 = 0
  low : b.lo + 16 ≤ b.cur
  room : b.cur + 8 ≤ b.sp
  top : b.sp + 32 ≤ b.hi

theorem newBirth_good (sz : Nat) (e : Env) (he : e.Ok) (req : Nat) (hs : req + 2 * pageSize ≤ sz) :
    Good (newBirth sz e) ∧ (newBirth sz e).cur + req ≤ (newBirth sz e).sp - 8 ∧ (newBirth sz e).dirty = false := by
  have h1 := align_ge sz pageSize (by unfold pageSize at hs; omega) (by decide)
  have h2 := he.aligned
  have h3 := he.keeps
  unfold pageSize at h1 h2 hs
  have h4 : align sz 4096 % 8 = 0 := by omega
  refine ⟨⟨?_, ?_, ?_, ?_, ?_, ?_⟩, ?_, rfl⟩ <;> simp only [newBirth, pageSize] <;> omega

theorem collect_good (b : Birth) (req : Nat) (e : Env) (he : e.Ok) (hr : req < maxBirth) :
    Good (collect b req e) ∧ (collect b req e).cur + req ≤ (collect b req e).sp - 8 ∧ (collect b req e).dirty = false := by
  unfold collect
  rw [if_neg (by omega)]
  split
  · exact newBirth_good _ e he req (by
      have := suggest_ge req e.old
      have : 2 * pageSize ≤ minBirth := by decide
      omega)
  · exact newBirth_good _ e he req (Nat.le_max_left _ _)

/-- Everything the program holds lies in the region, in order of its addresses, below the store list. -/
structure Inv (b : Birth) (blocks : List (Nat × Nat)) (slots' : List Nat) : Prop where
  good : Good b
  inside : ∀ x ∈ blocks, x.1 % 8 = 0 ∧ 16 ≤ x.2 ∧ b.lo + 16 ≤ x.1 ∧ x.1 + x.2 ≤ b.cur
  apart : blocks.Pairwise Disjoint
  slots : ∀ s ∈ slots', b.sp + 8 ≤ s ∧ s + 8 ≤ b.hi
  distinct : slots'.Pairwise (fun s t => t + 8 ≤ s)

theorem Inv.alloc {b blocks slots} (I : Inv b blocks slots) (siz e) (he : Env.Ok e) (hs : blockSize siz + 32 < maxBirth) :
    Inv (alloc b siz e).1
        ((if b.dirty ∨ b.cur + blockSize siz ≥ b.sp - 2 then [] else blocks) ++ [((alloc b siz e).2, blockSize siz)])
        (if b.dirty ∨ b.cur + blockSize siz ≥ b.sp - 2 then [] else slots) := by
  obtain ⟨f1, f2, f3, f4⟩ := blockSize_facts siz
  have G := I.good
  unfold Alloc.alloc
  by_cases hc : b.dirty ∨ b.cur + blockSize siz ≥ b.sp - 2
  · obtain ⟨C, h2, h3⟩ := collect_good b (blockSize siz + 32) e he hs
    simp only [if_pos hc]
    have c1 := C.lo; have c2 := C.cur; have c3 := C.sp; have c4 := C.low; have c5 := C.room; have c6 := C.top
    refine ⟨⟨c1, ?_, c3, ?_, ?_, c6⟩, ?_, by simp, by simp, by simp⟩
    · dsimp only; omega
    · dsimp only; omega
    · dsimp only; omega
    · intro x hx
      obtain rfl := by simpa using hx
      exact ⟨c2, f2, c4, Nat.le_refl _⟩
  · simp only [if_neg hc]
    have c1 := G.lo; have c2 := G.cur; have c3 := G.sp; have c4 := G.low; have c5 := G.room; have c6 := G.top
    have : b.cur + blockSize siz < b.sp - 2 := by
      by_contra h; exact hc (.inr (by omega))
    refine ⟨⟨c1, ?_, c3, ?_, ?_, c6⟩, ?_, ?_, I.slots, I.distinct⟩
    · dsimp only; omega
    · dsimp only; omega
    · dsimp only; omega
    · intro x hx
      rcases List.mem_append.1 hx with hx | hx
      · obtain ⟨g1, g2, g3, g4⟩ := I.inside x hx
        exact ⟨g1, g2, g3, by dsimp only; omega⟩
      · obtain rfl := by simpa using hx
        exact ⟨c2, f2, c4, Nat.le_refl _⟩
    · refine List.pairwise_append.2 ⟨I.apart, by simp, ?_⟩
      intro x hx y hy
      obtain rfl := by simpa using hy
      exact .inl (I.inside x hx).2.2.2

theorem Inv.touch {b blocks slots} (I : Inv b blocks slots) (e) (he : Env.Ok e) :
    Inv (touch b e) (if b.sp - 8 - 32 ≤ b.cur then [] else blocks)
      (if b.sp - 8 - 32 ≤ b.cur then [] else slots ++ [b.sp]) := by
  have G := I.good
  have c1 := G.lo; have c2 := G.cur; have c3 := G.sp; have c4 := G.low; have c5 := G.room; have c6 := G.top
  unfold Alloc.touch
  by_cases hc : b.sp - 8 - 32 ≤ b.cur
  · simp only [if_pos hc]
    exact ⟨(collect_good _ pageSize e he (by decide)).1, by simp, by simp, by simp, by simp⟩
  · simp only [if_neg hc]
    refine ⟨⟨c1, c2, ?_, c4, ?_, ?_⟩, I.inside, I.apart, ?_, ?_⟩
    · dsimp only; omega
    · show b.cur + 8 ≤ b.sp - 8; omega
    · dsimp only; omega
    · intro s hs
      dsimp only
      rcases List.mem_append.1 hs with hs | hs
      · have := I.slots s hs; omega
      · obtain rfl := by simpa using hs
        omega
    · refine List.pairwise_append.2 ⟨I.distinct, by simp, ?_⟩
      intro x hx y hy
      obtain rfl := by simpa using hy
      exact (I.slots x hx).1

theorem Hist.inv {b blocks slots} (h : Hist b blocks slots) : Inv b blocks slots := by
  induction h with
  | @boot lo hi cur h1 h2 h3 h4 h5 =>
    exact ⟨⟨h1, h3, by dsimp only; omega, h4, by show cur + 8 ≤ hi - 32; omega, by dsimp only; omega⟩,
      by simp, by simp, by simp, by simp⟩
  | alloc siz e _ he hs ih => exact ih.alloc siz e he hs
  | touch e _ he ih => exact ih.touch e he
  | dirty _ ih => exact ⟨⟨ih.good.lo, ih.good.cur, ih.good.sp, ih.good.low, ih.good.room, ih.good.top⟩, ih.inside, ih.apart,
      ih.slots, ih.distinct⟩
  | collect req e _ he hr ih => exact ⟨(collect_good _ req e he hr).1, by simp, by simp, by simp, by simp⟩

/-- C35. At every point of every history, the blocks given out since the last collection are aligned to 8 bytes, have
room for a forwarding pointer, lie inside the region and overlap neither each other nor the store list, whose entries do
not overlap each other. Partial: requests below 256 MB (`Hist.alloc`); see the refutation. -/
theorem C35_blocks_partial {b blocks slots} (h : Hist b blocks slots) :
    (∀ x ∈ blocks, x.1 % 8 = 0 ∧ 16 ≤ x.2 ∧ b.lo ≤ x.1 ∧ x.1 + x.2 ≤ b.hi) ∧
    blocks.Pairwise Disjoint ∧
    (∀ x ∈ blocks, ∀ s ∈ slots, Disjoint x (s, 8)) ∧
    slots.Pairwise (fun s t => Disjoint (s, 8) (t, 8)) ∧ ∀ s ∈ slots, b.lo ≤ s ∧ s + 8 ≤ b.hi := by
  have I := h.inv
  have G := I.good
  have c4 := G.low; have c5 := G.room; have c6 := G.top
  refine ⟨?_, I.apart, ?_, I.distinct.imp fun h => .inr h, ?_⟩
  · intro x hx
    obtain ⟨g1, g2, g3, g4⟩ := I.inside x hx
    exact ⟨g1, g2, by omega, by omega⟩
  · intro x hx s hs
    have := (I.inside x hx).2.2.2
    have := (I.slots s hs).1
    left; show x.1 + x.2 ≤ s; omega
  · intro s hs
    have := I.slots s hs
    omega

/-- C35. The block an allocation returns: as large as asked for, aligned, inside the region, and apart from everything given
out before that is still there. -/
theorem C35_alloc_partial {b blocks slots} (h : Hist b blocks slots) (siz e) (he : Env.Ok e)
    (hs : blockSize siz + 32 < maxBirth) :
    (alloc b siz e).2 % 8 = 0 ∧ siz ≤ blockSize siz ∧ 16 ≤ blockSize siz ∧
    (alloc b siz e).1.lo ≤ (alloc b siz e).2 ∧ (alloc b siz e).2 + blockSize siz ≤ (alloc b siz e).1.hi ∧
    (¬ (b.dirty ∨ b.cur + blockSize siz ≥ b.sp - 2) → ∀ x ∈ blocks, Disjoint x ((alloc b siz e).2, blockSize siz)) := by
  have I := C35_blocks_partial (Hist.alloc siz e h he hs)
  obtain ⟨f1, f2, _, _⟩ := blockSize_facts siz
  obtain ⟨g1, _, g3, g4⟩ := I.1 ((alloc b siz e).2, blockSize siz) (by simp)
  refine ⟨g1, f1, f2, g3, g4, fun hc x hx => ?_⟩
  have := I.2.1
  rw [if_neg hc] at this
  exact (List.pairwise_append.1 this).2.2 x hx _ (by simp)

/-- A history with blocks and store list entries. -/
example : Hist ⟨4096, 266240, 4520, 266200, false⟩ [(4496, 24)] [266208] :=
  .touch ⟨8192, 0, false, 0⟩ (.alloc 17 ⟨8192, 0, false, 0⟩ (.boot (lo := 4096) (hi := 266240) (cur := 4496) (by decide)
    (by decide) (by decide) (by decide) (by decide)) ⟨by decide, by decide⟩ (by decide)) ⟨by decide, by decide⟩

/-- C35, refuted for requests of 256 MB and more: the collector refuses, nobody looks at its answer, and the block reaches
beyond the region, whatever the system answers. -/
theorem C35_refuted : ∃ b blocks slots siz, Hist b blocks slots ∧ siz < 2^31 ∧ ∀ e,
    (alloc b siz e).1.hi < (alloc b siz e).2 + blockSize siz := by
  refine ⟨⟨4096, 266240, 4496, 266208, false⟩, [], [], 2^28, .boot (lo := 4096) (hi := 266240) (cur := 4496) (by decide)
    (by decide) (by decide) (by decide) (by decide), by decide, fun e => ?_⟩
  have hb : blockSize (2^28) = 2^28 := by decide
  have : alloc ⟨4096, 266240, 4496, 266208, false⟩ (2^28) e = (⟨4096, 266240, 4496 + 2^28, 266208, false⟩, 4496) := by
    simp only [alloc, hb]
    rw [if_pos (by decide)]
    unfold collect
    rw [if_pos (by decide)]
  rw [this, hb]
  decide

end Potion.Alloc
