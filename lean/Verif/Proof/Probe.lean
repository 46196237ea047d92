import Verif.Model.Khash
import Mathlib.Data.Nat.ModEq
import Mathlib.Data.Nat.Prime.Basic
import Mathlib.Data.Fintype.EquivFin
/-! Arithmetic of the double-hashing probe sequence for power-of-two tables. -/
namespace Potion

/-- `t`-th probed bucket. -/
def seq (n h t : Nat) : Nat := (h + t * (h ||| 1)) % n

theorem and_mask {n : Nat} (hn : ∃ e, n = 2^e) (x : Nat) : x &&& (n - 1) = x % n := by
  obtain ⟨e, rfl⟩ := hn
  exact Nat.and_two_pow_sub_one_eq_mod x e

theorem probe0_eq {n : Nat} (hn : ∃ e, n = 2^e) (h : Nat) : probe0 n h = seq n h 0 := by
  simp [probe0, seq, and_mask hn]

theorem probeNext_seq {n : Nat} (hn : ∃ e, n = 2^e) (h t : Nat) :
    probeNext n (probeInc n h) (seq n h t) = seq n h (t+1) := by
  unfold probeNext probeInc seq
  rw [and_mask hn, and_mask hn, ← Nat.add_mod, Nat.add_mul]
  congr 1; omega

theorem seq_lt {n : Nat} (hn : 0 < n) (h t : Nat) : seq n h t < n := Nat.mod_lt _ hn

theorem or_one_odd (h : Nat) : (h ||| 1) % 2 = 1 := by
  have := Nat.or_mod_two_pow (a := h) (b := 1) (n := 1)
  simp only [Nat.pow_one] at this
  rw [this]
  rcases Nat.mod_two_eq_zero_or_one h with h0 | h0 <;> simp [h0]

theorem coprime_inc (e h : Nat) : Nat.Coprime (h ||| 1) (2^e) := by
  apply Nat.Coprime.pow_right
  rw [Nat.coprime_two_right]
  exact Nat.odd_iff.2 (or_one_odd h)

theorem seq_inj {n : Nat} (hn : ∃ e, n = 2^e) {h s t : Nat} (hs : s < n) (ht : t < n) (he : seq n h s = seq n h t) :
    s = t := by
  obtain ⟨e, rfl⟩ := hn
  unfold seq at he
  have h1 : s * (h ||| 1) ≡ t * (h ||| 1) [MOD 2^e] := Nat.ModEq.add_left_cancel' h he
  have h2 : s ≡ t [MOD 2^e] := Nat.ModEq.cancel_right_of_coprime ((coprime_inc e h).symm) h1
  have := h2
  unfold Nat.ModEq at this
  rwa [Nat.mod_eq_of_lt hs, Nat.mod_eq_of_lt ht] at this

theorem seq_surj {n : Nat} (hn : ∃ e, n = 2^e) (h : Nat) {i : Nat} (hi : i < n) : ∃ t, t < n ∧ seq n h t = i := by
  obtain ⟨e, rfl⟩ := hn
  have hpos : 0 < 2^e := Nat.pos_of_ne_zero (by simp)
  by_contra hcon
  -- pigeonhole through Fin
  have inj : Function.Injective (fun t : Fin (2^e) => (⟨seq (2^e) h t, seq_lt hpos h t⟩ : Fin (2^e))) := by
    intro a b hab
    have : seq (2^e) h a = seq (2^e) h b := by simpa using hab
    exact Fin.ext (seq_inj ⟨e, rfl⟩ a.2 b.2 this)
  have surj := Finite.injective_iff_surjective.1 inj
  obtain ⟨t, ht⟩ := surj ⟨i, hi⟩
  exact hcon ⟨t, t.2, by simpa using ht⟩

end Potion
