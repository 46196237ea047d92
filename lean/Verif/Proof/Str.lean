import Verif.Model.Str
import Verif.Spec.Utf8
import Mathlib.Tactic.Ring
/-! Helper lemmas for strings. -/
namespace Potion.Str
open Potion Spec

theorem isCont_iff (b : Byte) : isCont b = true ↔ Continuation b := by
  have : ∀ b : BitVec 8, isCont b = true ↔ Continuation b := by decide +kernel
  exact this b

theorem contBit_eq (b : Byte) : contBit b = if isCont b then 1 else 0 := by
  have : ∀ b : BitVec 8, contBit b = if isCont b then 1 else 0 := by decide +kernel
  exact this b

/-! ### words as digit lists -/

/-- Little-endian value of a list of bytes. -/
def leVal : List Byte → Nat
  | [] => 0
  | b :: bs => b.toNat + 256 * leVal bs

theorem leVal_lt : ∀ bs : List Byte, leVal bs < 256 ^ bs.length
  | [] => by simp [leVal]
  | b :: bs => by
    have := leVal_lt bs
    have hb := b.isLt
    simp only [leVal, List.length_cons, Nat.pow_succ]
    omega

theorem and_digit (a x b y : Nat) (ha : a < 256) (hb : b < 256) :
    (a + 256 * x) &&& (b + 256 * y) = (a &&& b) + 256 * (x &&& y) := by
  have hab : a &&& b < 256 := Nat.lt_of_le_of_lt Nat.and_le_left ha
  rw [Nat.add_comm a, Nat.add_comm b, Nat.add_comm (a &&& b)]
  apply Nat.eq_of_testBit_eq
  intro i
  have e : (256:Nat) = 2^8 := rfl
  rw [e] at *
  rw [Nat.testBit_and, Nat.testBit_two_pow_mul_add _ ha, Nat.testBit_two_pow_mul_add _ hb,
    Nat.testBit_two_pow_mul_add _ hab]
  by_cases hi : i < 8
  · simp [hi]
  · simp [hi]

/-- Value of `n` digits equal to `d`. -/
def rep (d : Nat) : Nat → Nat
  | 0 => 0
  | n+1 => d + 256 * rep d n

theorem rep_le (d : Nat) (hd : d < 256) : ∀ n, rep d n < 256 ^ n
  | 0 => by simp [rep]
  | n+1 => by have := rep_le d hd n; simp only [rep, Nat.pow_succ]; omega

/-- Complement of a word of `n` bytes. -/
def compl (n u : Nat) : Nat := 256 ^ n - 1 - u

theorem compl_cons (b : Byte) (bs : List Byte) :
    compl (bs.length + 1) (leVal (b :: bs)) = (255 - b.toNat) + 256 * compl bs.length (leVal bs) := by
  have h := leVal_lt bs
  have hb := b.isLt
  have hp : 0 < 256 ^ bs.length := Nat.pow_pos (by omega)
  simp only [compl, leVal, Nat.pow_succ]
  omega

/-- The zero-byte test on an `n`-byte word. -/
theorem zero_test : ∀ bs : List Byte, (∀ b ∈ bs, b ≠ 0#8) →
    rep 1 bs.length ≤ leVal bs ∧
    (leVal bs - rep 1 bs.length) &&& compl bs.length (leVal bs) &&& rep 128 bs.length = 0
  | [], _ => by simp [rep, leVal]
  | b :: bs, h => by
    obtain ⟨h1, h2⟩ := zero_test bs (fun x hx => h x (List.mem_cons_of_mem _ hx))
    have hb : b ≠ 0#8 := h b (by simp)
    have hb1 : 1 ≤ b.toNat := by
      rcases Nat.eq_zero_or_pos b.toNat with h0 | h0
      · exact absurd (BitVec.eq_of_toNat_eq (by simpa using h0)) hb
      · exact h0
    have hblt := b.isLt
    refine ⟨by simp only [List.length_cons, rep, leVal]; omega, ?_⟩
    have e1 : leVal (b :: bs) - rep 1 (b :: bs).length = (b.toNat - 1) + 256 * (leVal bs - rep 1 bs.length) := by
      simp only [List.length_cons, rep, leVal]; omega
    rw [e1, List.length_cons, compl_cons, and_digit _ _ _ _ (by omega) (by omega), rep,
      and_digit _ _ _ _ (Nat.lt_of_le_of_lt Nat.and_le_left (by omega)) (by omega), h2]
    have key : ∀ b : BitVec 8, b ≠ 0#8 → (b.toNat - 1) &&& (255 - b.toNat) &&& 128 = 0 := by decide +kernel
    rw [key b hb]

theorem and_split (a x b y c z : Nat) (ha : a < 256) (hb : b < 256) (hc : c < 256)
    (h : (a &&& b &&& c) ≠ 0) : ((a + 256 * x) &&& (b + 256 * y)) &&& (c + 256 * z) ≠ 0 := by
  rw [and_digit _ _ _ _ ha hb, and_digit _ _ _ _ (Nat.lt_of_le_of_lt Nat.and_le_left ha) hc]
  omega

/-- If there is a zero byte the test is positive. (`D` is a word with `D ≡ leVal bs - rep 1 n` modulo `256^n`.) -/
theorem zero_test_pos : ∀ (bs : List Byte) (D : Nat), (∃ b ∈ bs, b = 0#8) →
    (D + rep 1 bs.length) % 256 ^ bs.length = leVal bs % 256 ^ bs.length →
    (D &&& compl bs.length (leVal bs)) &&& rep 128 bs.length ≠ 0
  | [], _, h, _ => by simp at h
  | b :: bs, D, h, hD => by
    have hl := leVal_lt bs
    have hblt := b.isLt
    have hp : 0 < 256 ^ bs.length := Nat.pow_pos (by omega)
    rw [List.length_cons, compl_cons, rep]
    have hDd : D = D % 256 + 256 * (D / 256) := by omega
    -- the low digit
    have hlow : (D % 256 + 1) % 256 = b.toNat := by
      have h1 : (D + rep 1 (b :: bs).length) % 256 ^ (b :: bs).length % 256 = leVal (b :: bs) % 256 ^ (b :: bs).length % 256 := by rw [hD]
      have hd : (256:Nat) ∣ 256 ^ (b :: bs).length := ⟨256 ^ bs.length, by rw [List.length_cons, Nat.pow_succ, Nat.mul_comm]⟩
      rw [Nat.mod_mod_of_dvd _ hd, Nat.mod_mod_of_dvd _ hd] at h1
      simp only [List.length_cons, rep, leVal] at h1
      omega
    by_cases hb : b = 0#8
    · subst hb
      have h255 : D % 256 = 255 := by simp at hlow; omega
      rw [hDd, h255]
      exact and_split _ _ _ _ _ _ (by omega) (by simp) (by omega) (by decide)
    · have hb1 : 1 ≤ b.toNat := by
        rcases Nat.eq_zero_or_pos b.toNat with h0 | h0
        · exact absurd (BitVec.eq_of_toNat_eq (by simpa using h0)) hb
        · exact h0
      have hDl : D % 256 = b.toNat - 1 := by omega
      have h' : ∃ x ∈ bs, x = 0#8 := by
        obtain ⟨x, hx, hx0⟩ := h
        rcases List.mem_cons.1 hx with rfl | hx
        · exact absurd hx0 hb
        · exact ⟨x, hx, hx0⟩
      have ih := zero_test_pos bs (D / 256) h' (by
        simp only [List.length_cons, rep, leVal, Nat.pow_succ] at hD
        have e1 : D + (1 + 256 * rep 1 bs.length) = b.toNat + 256 * (D / 256 + rep 1 bs.length) := by omega
        rw [e1, Nat.mul_comm (256 ^ bs.length) 256] at hD
        have m1 : ∀ x, (b.toNat + 256 * x) % (256 * 256 ^ bs.length) = b.toNat + 256 * (x % 256 ^ bs.length) := by
          intro x
          rw [Nat.mod_mul]
          have : (b.toNat + 256 * x) % 256 = b.toNat := by omega
          have h2 : (b.toNat + 256 * x) / 256 = x := by omega
          rw [this, h2]
        rw [m1, m1] at hD
        omega)
      rw [hDd, and_digit _ _ _ _ (by omega) (by omega), and_digit _ _ _ _ (Nat.lt_of_le_of_lt Nat.and_le_left (by omega)) (by omega)]
      omega

/-- The 0/1 digits marking continuation bytes. -/
theorem mark_digits : ∀ bs : List Byte,
    ((leVal bs &&& rep 128 bs.length) >>> 7) &&& (compl bs.length (leVal bs) >>> 6) =
      leVal (bs.map fun b => if isCont b then 1#8 else 0#8)
  | [] => by simp [leVal, rep]
  | b :: bs => by
    have ih := mark_digits bs
    have hblt := b.isLt
    have hl := leVal_lt bs
    have er : leVal ((b :: bs).map fun b => if isCont b then 1#8 else 0#8) = (if isCont b then 1#8 else 0#8).toNat +
        256 * leVal (bs.map fun b => if isCont b then 1#8 else 0#8) := rfl
    rw [er, ← ih, List.length_cons, compl_cons, leVal, rep, and_digit _ _ _ _ hblt (by omega)]
    simp only [Nat.shiftRight_eq_div_pow] at *
    have hx : (leVal bs &&& rep 128 bs.length) % 128 = 0 := by
      have : ∀ bs : List Byte, (leVal bs &&& rep 128 bs.length) % 128 = 0 := by
        intro bs
        induction bs with
        | nil => simp [leVal, rep]
        | cons c cs ih2 =>
          have hc := c.isLt
          rw [leVal, List.length_cons, rep, and_digit _ _ _ _ hc (by omega)]
          have key : ∀ b : BitVec 8, (b.toNat &&& 128) % 128 = 0 := by decide +kernel
          have := key c
          omega
      exact this bs
    have key : ∀ b : BitVec 8, b.toNat &&& 128 = 0 ∨ b.toNat &&& 128 = 128 := by decide +kernel
    have e1 : ((b.toNat &&& 128) + 256 * (leVal bs &&& rep 128 bs.length)) / 2 ^ 7
        = (b.toNat &&& 128) / 128 + 256 * ((leVal bs &&& rep 128 bs.length) / 2 ^ 7) := by
      have := key b; omega
    have e2 : (255 - b.toNat + 256 * compl bs.length (leVal bs)) / 2 ^ 6
        = ((255 - b.toNat) / 64 + 4 * (compl bs.length (leVal bs) % 64)) + 256 * (compl bs.length (leVal bs) / 2^6) := by
      omega
    rw [e1, e2, and_digit _ _ _ _ (by have := key b; omega) (by omega)]
    congr 1
    have key2 : ∀ b : BitVec 8, ∀ k : Fin 64, (b.toNat &&& 128) / 128 &&& ((255 - b.toNat) / 64 + 4 * k.val) =
        (if isCont b then 1#8 else 0#8).toNat := by
      have a0 : ∀ b : BitVec 8, (b.toNat &&& 128) / 128 &&& ((255 - b.toNat) / 64) = (if isCont b then 1#8 else 0#8).toNat := by
        decide +kernel
      have a1 : ∀ b : BitVec 8, (b.toNat &&& 128) / 128 = 0 ∨ (b.toNat &&& 128) / 128 = 1 := by decide +kernel
      intro b k
      rw [← a0 b]
      rcases a1 b with h | h
      · rw [h, Nat.zero_and, Nat.zero_and]
      · rw [h, Nat.and_comm, Nat.and_one_is_mod, Nat.and_comm, Nat.and_one_is_mod]; omega
    exact key2 b ⟨compl bs.length (leVal bs) % 64, Nat.mod_lt _ (by omega)⟩

/-! ### word operations on eight bytes -/
theorem load64_eq (m : Nat → Byte) (p : Nat) :
    load64 m p = BitVec.ofNat 64 (leVal [m p, m (p+1), m (p+2), m (p+3), m (p+4), m (p+5), m (p+6), m (p+7)]) := by
  simp [load64, leVal]

theorem rep1_8 : rep 1 8 = ONEMASK.toNat := by decide
theorem rep128_8 : rep 128 8 = HIMASK.toNat := by decide

theorem hasZero_iff (bs : List Byte) (h8 : bs.length = 8) :
    hasZero (BitVec.ofNat 64 (leVal bs)) = true ↔ ∃ b ∈ bs, b = 0#8 := by
  have hl := leVal_lt bs
  rw [h8] at hl
  have hval : (BitVec.ofNat 64 (leVal bs)).toNat = leVal bs := by
    rw [BitVec.toNat_ofNat]; exact Nat.mod_eq_of_lt (by omega)
  have hnot : (~~~(BitVec.ofNat 64 (leVal bs))).toNat = compl 8 (leVal bs) := by
    rw [BitVec.toNat_not, hval]; rfl
  have hsub : ((BitVec.ofNat 64 (leVal bs)) - ONEMASK).toNat = (2^64 - ONEMASK.toNat + leVal bs) % 2^64 := by
    rw [BitVec.toNat_sub, hval]
  have hto : ∀ x : BitVec 64, (x != 0#64) = true ↔ x.toNat ≠ 0 := by
    intro x
    rw [bne_iff_ne]
    constructor
    · intro hx hc; exact hx (BitVec.eq_of_toNat_eq (by simpa using hc))
    · rintro hx rfl; exact hx rfl
  unfold hasZero
  rw [hto, BitVec.toNat_and, BitVec.toNat_and, hsub, hnot, ← rep128_8, ← rep1_8]
  constructor
  · intro hne
    apply Classical.byContradiction
    intro hno
    have hall : ∀ b ∈ bs, b ≠ 0#8 := fun b hb hb0 => hno ⟨b, hb, hb0⟩
    obtain ⟨z1, z2⟩ := zero_test bs hall
    rw [h8] at z1 z2
    have e : (2^64 - rep 1 8 + leVal bs) % 2^64 = leVal bs - rep 1 8 := by
      have : rep 1 8 < 2^64 := by decide
      omega
    rw [e] at hne
    exact hne z2
  · intro hex
    have := zero_test_pos bs ((2^64 - rep 1 8 + leVal bs) % 2^64) hex (by
      rw [h8]
      have h1 : rep 1 8 < 2^64 := by decide
      have h2 : (256:Nat)^8 = 2^64 := by decide
      rw [h2]
      omega)
    rw [h8] at this
    exact this

theorem top_byte (Q S L X : Nat) (hX : X = 2^64 * Q + 2^56 * S + L) (hL : L < 2^56) (hS : S ≤ 8) : X % 2^64 / 2^56 = S := by
  subst hX; omega

theorem low_bytes (a0 a1 a2 a3 a4 a5 a6 : Nat) (h0 : a0 ≤ 7) (h1 : a1 ≤ 7) (h2 : a2 ≤ 7) (h3 : a3 ≤ 7) (h4 : a4 ≤ 7)
    (h5 : a5 ≤ 7) (h6 : a6 ≤ 7) :
    a0 + 256 * (a1 + 256 * (a2 + 256 * (a3 + 256 * (a4 + 256 * (a5 + 256 * a6))))) < 2^56 := by
  omega

theorem sum_ones (d0 d1 d2 d3 d4 d5 d6 d7 : Nat) (h0 : d0 ≤ 1) (h1 : d1 ≤ 1) (h2 : d2 ≤ 1) (h3 : d3 ≤ 1) (h4 : d4 ≤ 1)
    (h5 : d5 ≤ 1) (h6 : d6 ≤ 1) (h7 : d7 ≤ 1) :
    ((d0 + 256 * (d1 + 256 * (d2 + 256 * (d3 + 256 * (d4 + 256 * (d5 + 256 * (d6 + 256 * d7))))))) * 0x0101010101010101) % 2^64 / 2^56
      = d0 + d1 + d2 + d3 + d4 + d5 + d6 + d7 := by
  refine top_byte ((d1+d2+d3+d4+d5+d6+d7) + 256 * ((d2+d3+d4+d5+d6+d7) + 256 * ((d3+d4+d5+d6+d7) + 256 * ((d4+d5+d6+d7) +
          256 * ((d5+d6+d7) + 256 * ((d6+d7) + 256 * d7)))))) _
        (d0 + 256 * ((d0+d1) + 256 * ((d0+d1+d2) + 256 * ((d0+d1+d2+d3) + 256 * ((d0+d1+d2+d3+d4) +
          256 * ((d0+d1+d2+d3+d4+d5) + 256 * (d0+d1+d2+d3+d4+d5+d6))))))) _ (by ring)
        (low_bytes _ _ _ _ _ _ _ (by omega) (by omega) (by omega) (by omega) (by omega) (by omega) (by omega)) (by omega)

theorem contCount_eq (bs : List Byte) (h8 : bs.length = 8) :
    contCount (BitVec.ofNat 64 (leVal bs)) = bs.countP isCont := by
  have hl := leVal_lt bs
  rw [h8] at hl
  have hval : (BitVec.ofNat 64 (leVal bs)).toNat = leVal bs := by
    rw [BitVec.toNat_ofNat]; exact Nat.mod_eq_of_lt (by omega)
  have hnot : (~~~(BitVec.ofNat 64 (leVal bs))).toNat = compl 8 (leVal bs) := by
    rw [BitVec.toNat_not, hval]; rfl
  unfold contCount
  simp only
  rw [BitVec.toNat_ushiftRight, BitVec.toNat_mul, BitVec.toNat_and, BitVec.toNat_ushiftRight, BitVec.toNat_ushiftRight,
    BitVec.toNat_and, hval, hnot, ← rep128_8]
  have := mark_digits bs
  rw [h8] at this
  rw [this]
  match bs, h8 with
  | [b0, b1, b2, b3, b4, b5, b6, b7], _ =>
    simp only [List.map_cons, List.map_nil, leVal]
    have hd : ∀ b : Byte, (if isCont b = true then 1#8 else 0#8).toNat = if isCont b = true then 1 else 0 := by
      intro b; split <;> rfl
    have hle : ∀ b : Byte, (if isCont b = true then 1 else 0) ≤ 1 := by intro b; split <;> omega
    rw [Nat.shiftRight_eq_div_pow, show ONEMASK.toNat = 0x0101010101010101 by decide]
    simp only [hd, Nat.mul_zero, Nat.add_zero]
    rw [sum_ones _ _ _ _ _ _ _ _ (hle b0) (hle b1) (hle b2) (hle b3) (hle b4) (hle b5) (hle b6) (hle b7)]
    simp only [List.countP_cons, List.countP_nil]
    omega

/-! ### the counting loops -/

theorem _root_.Potion.Spec.HoldsAt.tail {m p b s} (h : HoldsAt m p (b :: s)) : HoldsAt m (p+1) s := by
  obtain ⟨h1, h2, h3⟩ := h
  refine ⟨?_, ?_, fun x hx => h3 x (List.mem_cons_of_mem _ hx)⟩
  · intro i hi
    have := h1 (i+1) (by simp; omega)
    rw [show p + 1 + i = p + (i+1) by omega, this]; simp
  · rw [show p + 1 + s.length = p + (b :: s).length by simp; omega]; exact h2

theorem _root_.Potion.Spec.HoldsAt.head {m p b s} (h : HoldsAt m p (b :: s)) : m p = b ∧ b ≠ 0#8 := by
  refine ⟨?_, h.2.2 b (by simp)⟩
  have := h.1 0 (by simp)
  simpa using this

theorem holdsAt_drop {m : Nat → Byte} : ∀ (n : Nat) {p : Nat} {s : List Byte}, HoldsAt m p s → n ≤ s.length →
    HoldsAt m (p+n) (s.drop n)
  | 0, _, _, h, _ => by simpa using h
  | n+1, p, b :: s, h, hn => by
    have := holdsAt_drop n h.tail (by simp at hn; omega)
    rw [show p + (n+1) = p + 1 + n by omega]; simpa using this
  | n+1, _, [], _, hn => by simp at hn

theorem tailLoop_spec (m : Nat → Byte) (p0 : Nat) : ∀ (s : List Byte) (fuel p c : Nat), HoldsAt m p s → s.length < fuel →
    tailLoop m p0 fuel p c = some ((p + s.length - p0) - (c + s.countP isCont))
  | [], f+1, p, c, h, _ => by
    have := h.2.1
    simp at this
    simp [tailLoop, this]
  | b :: s, f+1, p, c, h, hf => by
    obtain ⟨hm, hb⟩ := h.head
    have ih := tailLoop_spec m p0 s f (p+1) (c + contBit b) h.tail (by simp at hf; omega)
    simp only [tailLoop, hm]
    rw [if_neg hb, ih, contBit_eq, List.countP_cons, List.length_cons]
    congr 1
    omega
  | _, 0, _, _, _, hf => by omega

theorem wordLoop_spec (m : Nat → Byte) (p0 : Nat) : ∀ (fuel : Nat) (s : List Byte) (p c : Nat), HoldsAt m p s →
    s.length < fuel * 8 →
    wordLoop m p0 fuel p c = some ((p + s.length - p0) - (c + s.countP isCont))
  | 0, s, p, c, _, hf => by omega
  | f+1, s, p, c, h, hf => by
    unfold wordLoop
    simp only [load64_eq]
    by_cases h8 : 8 ≤ s.length
    · have hb : ∀ i (_ : i < 8), m (p+i) = s[i]'(by omega) := fun i hi => h.1 i (by omega)
      have hlist : [m p, m (p+1), m (p+2), m (p+3), m (p+4), m (p+5), m (p+6), m (p+7)] = s.take 8 := by
        apply List.ext_getElem
        · simp; omega
        · intro i hi1 hi2
          have hi : i < 8 := by simpa using hi1
          rw [List.getElem_take]
          have e := hb i hi
          match i, hi with
          | 0, _ => simpa using e
          | 1, _ => simpa using e
          | 2, _ => simpa using e
          | 3, _ => simpa using e
          | 4, _ => simpa using e
          | 5, _ => simpa using e
          | 6, _ => simpa using e
          | 7, _ => simpa using e
      rw [hlist]
      have hl8 : (s.take 8).length = 8 := by rw [List.length_take]; omega
      have hz : ¬ (hasZero (BitVec.ofNat 64 (leVal (s.take 8))) = true) := by
        rw [hasZero_iff _ hl8]
        rintro ⟨b, hb, hb0⟩
        exact h.2.2 b (List.mem_of_mem_take hb) hb0
      rw [if_neg hz, contCount_eq _ hl8]
      have ih := wordLoop_spec m p0 f (s.drop 8) (p+8) (c + (s.take 8).countP isCont) (holdsAt_drop 8 h h8)
        (by rw [List.length_drop]; omega)
      rw [ih]
      have hc : s.countP isCont = (s.take 8).countP isCont + (s.drop 8).countP isCont := by
        rw [← List.countP_append, List.take_append_drop]
      rw [hc, List.length_drop]
      congr 1
      omega
    · have hz : hasZero (BitVec.ofNat 64 (leVal [m p, m (p+1), m (p+2), m (p+3), m (p+4), m (p+5), m (p+6), m (p+7)])) = true := by
        rw [hasZero_iff _ rfl]
        refine ⟨m (p + s.length), ?_, h.2.1⟩
        have : s.length < 8 := by omega
        generalize s.length = n at this
        match n, this with
        | 0, _ => simp
        | 1, _ => simp
        | 2, _ => simp
        | 3, _ => simp
        | 4, _ => simp
        | 5, _ => simp
        | 6, _ => simp
        | 7, _ => simp
      rw [if_pos hz]
      exact tailLoop_spec m p0 s 9 p c h (by omega)

theorem headLoop_spec (m : Nat → Byte) (p0 fuel : Nat) : ∀ (n : Nat) (s : List Byte) (p c : Nat), HoldsAt m p s →
    s.length < fuel * 8 →
    headLoop m p0 fuel n p c = some ((p + s.length - p0) - (c + s.countP isCont))
  | 0, s, p, c, h, hf => by
    unfold headLoop
    exact wordLoop_spec m p0 fuel s p c h hf
  | n+1, s, p, c, h, hf => by
    unfold headLoop
    by_cases h8 : p % 8 ≠ 0
    · rw [if_pos h8]
      match s with
      | [] =>
        have := h.2.1
        simp at this
        simp [this]
      | b :: s =>
        obtain ⟨hm, hb⟩ := h.head
        have ih := headLoop_spec m p0 fuel n s (p+1) (c + contBit b) h.tail (by simp at hf; omega)
        rw [hm, if_neg hb, ih, contBit_eq, List.countP_cons, List.length_cons]
        congr 1
        omega
    · rw [if_neg h8]
      exact wordLoop_spec m p0 fuel s p c h hf

theorem headLoop_aligned (m : Nat → Byte) (p0 fuel : Nat) (s : List Byte) (h : HoldsAt m p0 s) (hf : s.length < fuel * 8) :
    strlenUtf8 m p0 fuel = some (s.length - s.countP isCont) := by
  unfold strlenUtf8
  rw [headLoop_spec m p0 fuel 8 s p0 0 h hf]
  congr 1
  omega

end Potion.Str
