import Verif.Model.Bytes
/-! Helper lemmas for byte buffers. -/
namespace Potion.Bytes
open Potion

theorem bytesAlign_ge (n : Nat) : n ≤ bytesAlign n ∧ bytesAlign n ≤ n + 32 := by
  unfold bytesAlign align; omega

/-- The growth computation of `append` always leaves room for the text and its NUL. -/
theorem grown_enough (n : Nat) : n + 1 ≤ bytesAlign (n / 8 * 9 + 1) := by
  unfold bytesAlign align; omega

theorem grown_bound (n : Nat) : bytesAlign (n / 8 * 9 + 1) ≤ n * 9 / 8 + 33 := by
  unfold bytesAlign align; omega

theorem block_length (junk : Nat → Byte) (n : Nat) : (block junk n).length = n := by simp [block]

theorem realloc_length (m : List Byte) (j : Nat → Byte) (n : Nat) : (realloc m j n).length = max m.length n := by
  unfold realloc
  by_cases h : m.length ≥ n
  · rw [if_pos h]; omega
  · rw [if_neg h, List.length_append, block_length]; omega

theorem realloc_take (m : List Byte) (j : Nat → Byte) (n k : Nat) (h : k ≤ m.length) : (realloc m j n).take k = m.take k := by
  unfold realloc
  by_cases hh : m.length ≥ n
  · rw [if_pos hh]
  · rw [if_neg hh, List.take_append_of_le_length h]

theorem writeAt_spec (m : List Byte) (off : Nat) (bs : List Byte) (h : off + bs.length ≤ m.length) :
    ∃ m', writeAt m off bs = some m' ∧ m'.length = m.length ∧ m'.take (off + bs.length) = m.take off ++ bs ∧
      m'.drop (off + bs.length) = m.drop (off + bs.length) := by
  have hl : (m.take off ++ bs).length = off + bs.length := by simp; omega
  refine ⟨m.take off ++ bs ++ m.drop (off + bs.length), by unfold writeAt; rw [if_pos h], ?_, ?_, ?_⟩
  · rw [List.length_append, hl, List.length_drop]; omega
  · rw [← hl, List.take_left]
  · conv => lhs; rw [← hl, List.drop_left]
    rw [hl]

/-- Contents: the first `len` bytes. -/
def Buf.contents (b : Buf) : List Byte := b.mem.take b.len

/-- A buffer holds the text `l`, NUL-terminated, inside its block. -/
def Holds (b : Buf) (l : List Byte) : Prop :=
  b.len = l.length ∧ b.len + 1 ≤ b.mem.length ∧ b.mem.take b.len = l ∧ b.mem[b.len]? = some 0#8

theorem ensure_spec {b : Buf} {l : List Byte} (h : Holds b l) (junk : Nat → Byte) (n : Nat) (hn : l.length + n < 2^31) :
    (ensure b junk n).len = l.length ∧ l.length + n + 1 ≤ (ensure b junk n).mem.length ∧
    (ensure b junk n).mem.take l.length = l := by
  obtain ⟨h1, h2, h3, _⟩ := h
  unfold ensure
  have e : (b.len + n + 1) % 2^32 = b.len + n + 1 := by omega
  rw [e]
  by_cases hc : b.len + n + 1 > b.mem.length
  · rw [if_pos hc]
    simp only []
    have e2 : (b.len + n) % 2^32 = b.len + n := by omega
    have e3 : ((b.len + n) / 8 * 9) % 2^32 = (b.len + n) / 8 * 9 := by omega
    have g1 := grown_enough (b.len + n)
    have g2 := grown_bound (b.len + n)
    rw [e2, e3]
    have e4 : bytesAlign ((b.len + n) / 8 * 9 + 1) % 2^32 = bytesAlign ((b.len + n) / 8 * 9 + 1) := by omega
    rw [e4, realloc_length, ← h1, realloc_take _ _ _ _ (by omega)]
    exact ⟨rfl, by omega, h3⟩
  · rw [if_neg hc]
    exact ⟨h1, by omega, by rw [← h1]; exact h3⟩

theorem finish {m : List Byte} {l s : List Byte} (hroom : l.length + s.length + 1 ≤ m.length) (ht : m.take l.length = l)
    (hn : l.length + s.length < 2^31) :
    ∃ m1 m2, writeAt m l.length s = some m1 ∧ writeAt m1 ((l.length + s.length) % 2^32) [0#8] = some m2 ∧
      Holds { mem := m2, len := (l.length + s.length) % 2^32 } (l ++ s) := by
  obtain ⟨m1, a1, a2, a3, _⟩ := writeAt_spec m l.length s (by omega)
  have e : (l.length + s.length) % 2^32 = l.length + s.length := by omega
  rw [e]
  obtain ⟨m2, b1, b2, b3, _⟩ := writeAt_spec m1 (l.length + s.length) [0#8] (by simp; omega)
  refine ⟨m1, m2, a1, b1, by simp, by simp; omega, ?_, ?_⟩
  · have := congrArg (List.take (l.length + s.length)) b3
    rw [List.take_take, List.take_append_of_le_length (by simp; omega), List.take_take] at this
    simp only [List.length_singleton, Nat.min_self] at this
    rw [Nat.min_eq_left (by omega)] at this
    simp only []
    rw [this, a3, ht]
  · simp only []
    have : m2[l.length + s.length]? = (m2.take (l.length + s.length + 1))[l.length + s.length]? := by
      rw [List.getElem?_take]; simp
    rw [this]
    simp only [List.length_singleton] at b3
    rw [b3, List.getElem?_append_right (by simp; omega)]
    simp [Nat.min_eq_left (show l.length + s.length ≤ m1.length by omega)]

theorem append_spec {b : Buf} {l : List Byte} (h : Holds b l) (junk : Nat → Byte) (s : List Byte)
    (hn : l.length + s.length < 2^31) : ∃ b', append b junk s = some b' ∧ Holds b' (l ++ s) := by
  obtain ⟨h1, h2, h3⟩ := ensure_spec h junk s.length hn
  obtain ⟨m1, m2, a, c, d⟩ := finish h2 h3 hn
  refine ⟨_, ?_, d⟩
  unfold append
  simp only [h1, a, c]

theorem appendSelf_spec {b : Buf} {l : List Byte} (h : Holds b l) (junk : Nat → Byte)
    (hn : l.length + l.length < 2^31) : ∃ b', appendSelf b junk = some b' ∧ Holds b' (l ++ l) := by
  obtain ⟨h1, h2, h3⟩ := ensure_spec h junk l.length hn
  obtain ⟨m1, m2, a, c, d⟩ := finish h2 h3 hn
  refine ⟨_, ?_, d⟩
  unfold appendSelf
  simp only [h.1, h1, h3, a, c]

theorem printf_spec {b : Buf} {l : List Byte} (h : Holds b l) (junk : Nat → Byte) (s : List Byte)
    (hn : l.length + s.length < 2^31) : ∃ b', printf b junk s = some b' ∧ Holds b' (l ++ s) := by
  obtain ⟨h1, h2, h3⟩ := ensure_spec h junk s.length hn
  obtain ⟨m, a1, a2, a3, _⟩ := writeAt_spec (ensure b junk s.length).mem l.length (s ++ [0#8]) (by simp; omega)
  have e : (l.length + s.length) % 2^32 = l.length + s.length := by omega
  refine ⟨{ mem := m, len := l.length + s.length }, ?_, by simp, by simp; omega, ?_, ?_⟩
  · unfold printf
    simp only [h1, a1, e]
  · simp only []
    have := congrArg (List.take (l.length + s.length)) a3
    rw [List.take_take, h3, ← List.append_assoc] at this
    rw [Nat.min_eq_left (by simp)] at this
    rw [this]
    rw [List.take_append_of_le_length (by simp)]
    rw [← List.length_append, List.take_length]
  · simp only []
    have : m[l.length + s.length]? = (m.take (l.length + (s ++ [0#8]).length))[l.length + s.length]? := by
      rw [List.getElem?_take]; simp
    rw [this, a3, h3, ← List.append_assoc, List.getElem?_append_right (by simp)]
    simp

theorem byteStr2_spec (junk : Nat → Byte) (s : List Byte) (hn : s.length < 2^31) :
    ∃ b, byteStr2 junk s = some b ∧ Holds b s := by
  have g := bytesAlign_ge (s.length + 1)
  have hlen : (bytesNew junk s.length).mem.length = bytesAlign (s.length + 1) := by
    unfold bytesNew; simp only [block_length]; omega
  have := finish (m := (bytesNew junk s.length).mem) (l := []) (s := s) (by simp; omega) (by simp) (by simp; omega)
  obtain ⟨m1, m2, a, c, d⟩ := this
  have e : ((([] : List Byte)).length + s.length) % 2^32 = s.length := by simp; omega
  rw [e] at c d
  refine ⟨_, ?_, d⟩
  unfold byteStr2
  simp only [List.length_nil] at a
  simp only [a, c]
  congr 1
  unfold bytesNew
  simp; omega

/-! ### Assembler buffers -/

theorem growLoop_spec (need : Nat) : ∀ (fuel capa : Nat), need ≤ capa + (fuel - 1) * 512 → 0 < fuel →
    ∃ c, growLoop need fuel capa = some c ∧ need ≤ c ∧ capa ≤ c
  | 0, _, _, h => by omega
  | f+1, capa, h, _ => by
    unfold growLoop
    by_cases hc : capa < need
    · rw [if_pos hc]
      obtain ⟨c, h1, h2, h3⟩ := growLoop_spec need f (capa + ASM_UNIT) (by unfold ASM_UNIT; omega) (by omega)
      exact ⟨c, h1, h2, by unfold ASM_UNIT at h3; omega⟩
    · rw [if_neg hc]; exact ⟨capa, rfl, by omega, by omega⟩

theorem flexNeeds_spec (b : Buf) (junk : Nat → Byte) (x : Nat) (hb : b.len ≤ b.mem.length) :
    ∃ b', flexNeeds b junk x = some b' ∧ b'.len = b.len ∧ b.len + x ≤ b'.mem.length ∧ b'.mem.take b.len = b.mem.take b.len := by
  unfold flexNeeds
  by_cases hc : b.mem.length < b.len + x
  · rw [if_pos hc]
    obtain ⟨c, h1, h2, h3⟩ := growLoop_spec (b.len + x) (b.len + x + 1) b.mem.length (by omega) (by omega)
    rw [h1]
    refine ⟨_, rfl, rfl, ?_, ?_⟩
    · simp only [realloc_length]; omega
    · simp only []; rw [realloc_take _ _ _ _ hb]
  · rw [if_neg hc]; exact ⟨b, rfl, rfl, by omega, rfl⟩

theorem leBytes_length : ∀ n v, (leBytes n v).length = n
  | 0, _ => rfl
  | n+1, v => by simp [leBytes, leBytes_length n]

/-- Writing bytes at the end after making room. -/
theorem emit_spec (b : Buf) (junk : Nat → Byte) (s : List Byte) (hb : b.len ≤ b.mem.length) :
    ∃ b1 m, flexNeeds b junk s.length = some b1 ∧ b1.len = b.len ∧ writeAt b1.mem b1.len s = some m ∧
      b.len + s.length ≤ m.length ∧ m.take (b.len + s.length) = b.mem.take b.len ++ s := by
  obtain ⟨b1, h1, h2, h3, h4⟩ := flexNeeds_spec b junk s.length hb
  obtain ⟨m, a1, a2, a3, _⟩ := writeAt_spec b1.mem b1.len s (by omega)
  refine ⟨b1, m, h1, h2, a1, by omega, ?_⟩
  rw [← h2, a3, h2, h4]

end Potion.Bytes
