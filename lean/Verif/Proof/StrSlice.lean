import Verif.Proof.Str
/-! Helper lemmas: character positions, slices, code points. -/
namespace Potion.Str
open Potion Spec

theorem ne_zero_of_cont {b : Byte} (h : Continuation b) : b ≠ 0#8 := by
  rintro rfl; exact absurd h (by decide)

theorem text_nonzero {cs : List (List Byte)} (h : IsText cs) : ∀ b ∈ cs.flatten, b ≠ 0#8 := by
  intro b hb
  obtain ⟨c, hc, hbc⟩ := List.mem_flatten.1 hb
  have := h c hc
  match c, this with
  | x :: t, ⟨h1, _, h3⟩ =>
    rcases List.mem_cons.1 hbc with rfl | hbt
    · exact h1
    · exact ne_zero_of_cont (h3 b hbt)

theorem takeWhile_text {cs : List (List Byte)} (h : IsText cs) : cs.flatten.takeWhile (· ≠ 0#8) = cs.flatten := by
  have aux : ∀ l : List Byte, (∀ b ∈ l, b ≠ 0#8) → l.takeWhile (· ≠ 0#8) = l := by
    intro l
    induction l with
    | nil => intro _; rfl
    | cons b l ih =>
      intro hl
      have hb := hl b (by simp)
      rw [List.takeWhile_cons, if_pos (by simpa using hb), ih (fun x hx => hl x (by simp [hx]))]
  exact aux _ (text_nonzero h)

theorem charCount_text {cs : List (List Byte)} (h : IsText cs) : charCount cs.flatten = cs.length := by
  unfold charCount
  rw [takeWhile_text h]
  induction cs with
  | nil => rfl
  | cons c cs ih =>
    have hc := h c (by simp)
    have ih := ih (fun d hd => h d (by simp [hd]))
    match c, hc with
    | b :: t, ⟨_, h2, h3⟩ =>
      rw [List.flatten_cons, List.countP_append, ih, List.countP_cons]
      have e1 : isCont b = false := by
        cases hb : isCont b
        · rfl
        · exact absurd ((isCont_iff b).1 hb) h2
      have e2 : t.countP (fun b => !isCont b) = 0 := by
        rw [List.countP_eq_zero]
        intro x hx
        simp [(isCont_iff x).2 (h3 x hx)]
      simp [e1, e2]; omega

theorem charOffset_skip (t : List Byte) (rest : List Byte) (ht : ∀ x ∈ t, Continuation x) (k i : Nat) :
    charOffset (t ++ rest) k i = charOffset rest k (i + t.length) := by
  induction t generalizing i with
  | nil => simp
  | cons x t ih =>
    have hx := ht x (by simp)
    rw [List.cons_append, charOffset, if_neg (ne_zero_of_cont hx)]
    have : isCont x = true := (isCont_iff x).2 hx
    simp only [this, Bool.not_true, Bool.false_eq_true, if_false]
    rw [ih (fun y hy => ht y (by simp [hy]))]
    congr 1; simp; omega

theorem charOffset_text {cs : List (List Byte)} (h : IsText cs) (k i : Nat) :
    charOffset cs.flatten k i = i + (cs.take k).flatten.length := by
  induction cs generalizing k i with
  | nil => simp [charOffset]
  | cons c cs ih =>
    have hc := h c (by simp)
    have ih := ih (fun d hd => h d (by simp [hd]))
    match c, hc with
    | b :: t, ⟨h1, h2, h3⟩ =>
      have e1 : isCont b = false := by
        cases hb : isCont b
        · rfl
        · exact absurd ((isCont_iff b).1 hb) h2
      rw [List.flatten_cons, List.cons_append, charOffset, if_neg h1]
      simp only [e1, Bool.not_false, if_true]
      cases k with
      | zero => simp
      | succ k =>
        rw [if_neg (by omega), charOffset_skip t _ h3, Nat.add_sub_cancel, ih k]
        simp; omega

theorem flatten_drop (cs : List (List Byte)) (a : Nat) : cs.flatten.drop (cs.take a).flatten.length = (cs.drop a).flatten := by
  conv => lhs; rw [← List.take_append_drop a cs, List.flatten_append]
  rw [List.take_append_drop]
  simp

theorem cmem_lt (s : List Byte) (junk : Nat → Byte) (i : Nat) (h : i < s.length) : cmem s junk i = s[i] := by
  unfold cmem; rw [dif_pos h]

theorem copyRange_eq (s : List Byte) (junk : Nat → Byte) (a b : Nat) (hab : a ≤ b) (hb : b ≤ s.length) :
    copyRange (cmem s junk) a b = some ((s.drop a).take (b - a)) := by
  unfold copyRange
  rw [if_neg (by omega)]
  congr 1
  apply List.ext_getElem
  · simp; omega
  · intro i h1 h2
    have hi : i < b - a := by simpa using h1
    rw [List.getElem_take, List.getElem_drop, List.getElem_map, List.getElem_range, cmem_lt _ _ _ (by omega)]

theorem take_len_le (cs : List (List Byte)) (a b : Nat) (hab : a ≤ b) :
    (cs.take a).flatten.length ≤ (cs.take b).flatten.length ∧ (cs.take b).flatten.length ≤ cs.flatten.length := by
  have sub : ∀ (xs : List (List Byte)) (n : Nat), (xs.take n).flatten.length ≤ xs.flatten.length := by
    intro xs n
    conv => rhs; rw [← List.take_append_drop n xs, List.flatten_append, List.length_append]
    omega
  refine ⟨?_, sub cs b⟩
  have : (cs.take a) = (cs.take b).take a := by rw [List.take_take, Nat.min_eq_left hab]
  rw [this]; exact sub _ _

/-- Copying the bytes between two character positions gives whole characters. -/
theorem copy_chars {cs : List (List Byte)} (junk : Nat → Byte) (a b : Nat) (hab : a ≤ b) :
    copyRange (cmem cs.flatten junk) (cs.take a).flatten.length (cs.take b).flatten.length
      = some ((cs.take b).drop a).flatten := by
  obtain ⟨h1, h2⟩ := take_len_le cs a b hab
  rw [copyRange_eq _ _ _ _ h1 h2, flatten_drop]
  congr 1
  have hb : cs.take b = cs.take a ++ (cs.take b).drop a := by
    conv => lhs; rw [← List.take_append_drop a (cs.take b)]
    rw [List.take_take, Nat.min_eq_left hab]
  have hlen : (cs.take b).flatten.length - (cs.take a).flatten.length = ((cs.take b).drop a).flatten.length := by
    conv => lhs; rw [hb]
    rw [List.flatten_append, List.length_append]; omega
  rw [hlen]
  have hd : cs.drop a = (cs.take b).drop a ++ cs.drop b := by
    conv => lhs; rw [← List.take_append_drop b cs]
    rw [List.drop_append]
    by_cases hbl : b ≤ cs.length
    · have : a - (cs.take b).length = 0 := by rw [List.length_take]; omega
      rw [this, List.drop_zero]
    · rw [List.drop_eq_nil_of_le (i := b) (by omega)]; simp
  rw [hd, List.flatten_append]
  simp

/-! next character -/
theorem nextCharLoop_skip (m : Nat → Byte) : ∀ (t : List Byte) (fuel i : Nat), t.length < fuel →
    (∀ k (h : k < t.length), m (i + k) = t[k]) → (∀ x ∈ t, Continuation x) → (m (i + t.length) = 0#8 ∨ ¬ Continuation (m (i + t.length))) →
    nextCharLoop m fuel i = some (i + t.length)
  | [], f+1, i, _, _, _, he => by
    simp only [List.length_nil, Nat.add_zero] at he ⊢
    unfold nextCharLoop
    by_cases h0 : m i = 0#8
    · rw [if_pos h0]
    · rw [if_neg h0]
      have hc : ¬ Continuation (m i) := by
        rcases he with h | h
        · exact absurd h h0
        · exact h
      have : isCont (m i) = false := by
        cases hb : isCont (m i)
        · rfl
        · exact absurd ((isCont_iff _).1 hb) hc
      simp [this]
  | x :: t, f+1, i, hf, hm, hc, he => by
    have h0 : m i = x := by have := hm 0 (by simp); simpa using this
    have hx := hc x (by simp)
    unfold nextCharLoop
    rw [h0, if_neg (ne_zero_of_cont hx)]
    have : isCont x = true := (isCont_iff x).2 hx
    simp only [this, Bool.not_true, Bool.false_eq_true, if_false]
    rw [nextCharLoop_skip m t f (i+1) (by simp at hf; omega) ?_ (fun y hy => hc y (by simp [hy])) ?_]
    · simp; omega
    · intro k hk
      have := hm (k+1) (by simp; omega)
      rw [show i + 1 + k = i + (k+1) by omega, this]; simp
    · rw [show i + 1 + t.length = i + (x :: t).length by simp; omega]; exact he
  | _, 0, _, hf, _, _, _ => by omega

theorem nextChar_text {cs : List (List Byte)} (h : IsText cs) (junk : Nat → Byte) (k fuel : Nat) (hk : k < cs.length)
    (hf : cs.flatten.length < fuel) :
    nextChar (cmem cs.flatten junk) fuel (cs.take k).flatten.length = some (cs.take (k+1)).flatten.length := by
  have hc := h cs[k] (List.getElem_mem hk)
  have hsplit : cs.take (k+1) = cs.take k ++ [cs[k]] := by rw [List.take_add_one, List.getElem?_eq_getElem hk]; rfl
  have hfl : cs.flatten = (cs.take k).flatten ++ (cs[k] ++ (cs.drop (k+1)).flatten) := by
    conv => lhs; rw [← List.take_append_drop k cs, List.flatten_append, List.drop_eq_getElem_cons hk, List.flatten_cons]
  rcases hck : cs[k] with _ | ⟨b, t⟩
  · rw [hck] at hc; exact absurd hc id
  · rw [hck] at hc hfl hsplit
    obtain ⟨_, _, h3⟩ := hc
    unfold nextChar
    have hlen : cs.flatten.length = (cs.take k).flatten.length + (t.length + 1 + (cs.drop (k+1)).flatten.length) := by
      have := congrArg List.length hfl
      rw [List.length_append, List.length_append, List.length_cons] at this
      exact this
    rw [nextCharLoop_skip _ t fuel _ (by omega) ?_ h3 ?_]
    · rw [hsplit]; simp; omega
    · intro j hj
      rw [cmem_lt _ _ _ (by omega)]
      have e : ∀ (A B : List Byte), (A ++ (b :: t ++ B))[A.length + 1 + j]? = some (t[j]'hj) := by
        intro A B
        rw [List.getElem?_append_right (by omega)]
        have : A.length + 1 + j - A.length = j + 1 := by omega
        rw [this, List.cons_append, List.getElem?_cons_succ, List.getElem?_append_left hj, List.getElem?_eq_getElem hj]
      have e' := e (cs.take k).flatten (cs.drop (k+1)).flatten
      have : cs.flatten[(cs.take k).flatten.length + 1 + j]? = some (t[j]'hj) := by
        rw [← hfl] at e'; exact e'
      rw [List.getElem?_eq_getElem (by omega)] at this
      exact Option.some.inj this
    · rcases hdr : cs.drop (k+1) with _ | ⟨d, ds⟩
      · left
        have : (cs.take k).flatten.length + 1 + t.length = cs.flatten.length := by rw [hlen, hdr]; simp; omega
        rw [this]; unfold cmem; simp
      · right
        have hd := h d (List.mem_of_mem_drop (i := k+1) (by rw [hdr]; simp))
        match d, hd with
        | b' :: t', ⟨_, h2', _⟩ =>
          have hlt : (cs.take k).flatten.length + 1 + t.length < cs.flatten.length := by rw [hlen, hdr]; simp; omega
          rw [cmem_lt _ _ _ hlt]
          have : cs.flatten[(cs.take k).flatten.length + 1 + t.length]? = some b' := by
            have e : ∀ (A B : List Byte), (A ++ (b :: t ++ (b' :: B)))[A.length + 1 + t.length]? = some b' := by
              intro A B
              rw [List.getElem?_append_right (by omega)]
              have : A.length + 1 + t.length - A.length = t.length + 1 := by omega
              rw [this]
              simp
            conv => lhs; arg 1; rw [hfl, hdr, List.flatten_cons, List.cons_append]
            exact e _ _
          rw [List.getElem?_eq_getElem hlt] at this
          rw [Option.some.inj this]; exact h2'

/-! ### code points -/
theorem strip_lead2 (b : Byte) (h : 0xC0 ≤ b.toNat) (h' : b.toNat < 0xE0) : (strip b).toNat = b.toNat - 0xC0 := by
  have : ∀ b : BitVec 8, 0xC0 ≤ b.toNat → b.toNat < 0xE0 → (strip b).toNat = b.toNat - 0xC0 := by decide +kernel
  exact this b h h'
theorem strip_lead3 (b : Byte) (h : 0xE0 ≤ b.toNat) (h' : b.toNat < 0xF0) : (strip b).toNat = b.toNat - 0xE0 := by
  have : ∀ b : BitVec 8, 0xE0 ≤ b.toNat → b.toNat < 0xF0 → (strip b).toNat = b.toNat - 0xE0 := by decide +kernel
  exact this b h h'
theorem strip_lead4 (b : Byte) (h : 0xF0 ≤ b.toNat) : (strip b).toNat = b.toNat - 0xF0 := by
  have : ∀ b : BitVec 8, 0xF0 ≤ b.toNat → (strip b).toNat = b.toNat - 0xF0 := by decide +kernel
  exact this b h
theorem strip_cont (b : Byte) (h : Continuation b) : (strip b).toNat = b.toNat - 0x80 := by
  have : ∀ b : BitVec 8, Continuation b → (strip b).toNat = b.toNat - 0x80 := by decide +kernel
  exact this b h
theorem strip_ascii (b : Byte) (h : b.toNat < 0x80) : strip b = b := by
  unfold strip; rw [if_neg (by omega)]

theorem step_toNat (u : BitVec 64) (b : Byte) (hu : u.toNat < 2^32) (hb : (strip b).toNat < 64) :
    ((u <<< 6) ||| (strip b).setWidth 64).toNat = u.toNat * 64 + (strip b).toNat := by
  rw [BitVec.toNat_or, BitVec.toNat_shiftLeft, BitVec.toNat_setWidth, Nat.shiftLeft_eq]
  have h1 : u.toNat * 2^6 % 2^64 = 2^6 * u.toNat := by omega
  have h2 : (strip b).toNat % 2^64 = (strip b).toNat := by omega
  rw [h1, h2, ← Nat.two_pow_add_eq_or_of_lt (by omega)]
  omega

theorem first_toNat (b : Byte) : ((0#64 <<< 6) ||| (strip b).setWidth 64).toNat = (strip b).toNat := by
  have := (strip b).isLt
  rw [BitVec.toNat_or, BitVec.toNat_setWidth]
  simp
  omega

theorem or_const (k x m : Nat) (hx : x < 2^k) : x ||| (2^k * m) = 2^k * m + x := by
  rw [Nat.or_comm, ← Nat.two_pow_add_eq_or_of_lt hx]

theorem and63 (x : Nat) : x &&& 0x3f = x % 64 := Nat.and_two_pow_sub_one_eq_mod x 6

theorem cont_byte (x : Nat) : (byteOf ((x &&& 0x3f) ||| 0x80)).toNat = 0x80 + x % 64 := by
  rw [and63]
  have : x % 64 ||| 0x80 = 0x80 + x % 64 := or_const 6 (x % 64) 2 (by omega)
  rw [this]; unfold byteOf; rw [BitVec.toNat_ofNat]; omega
theorem lead2_byte (c : Nat) (h : c < 0x800) : (byteOf ((c >>> 6) ||| 0xc0)).toNat = 0xC0 + c / 64 := by
  rw [Nat.shiftRight_eq_div_pow]
  have : c / 2^6 ||| 0xc0 = 0xc0 + c / 2^6 := or_const 6 (c / 2^6) 3 (by omega)
  rw [this]; unfold byteOf; rw [BitVec.toNat_ofNat]; omega
theorem lead3_byte (c : Nat) (h : c < 0x10000) : (byteOf ((c >>> 12) ||| 0xe0)).toNat = 0xE0 + c / 4096 := by
  rw [Nat.shiftRight_eq_div_pow]
  have : c / 2^12 ||| 0xe0 = 0xe0 + c / 2^12 := or_const 5 (c / 2^12) 7 (by omega)
  rw [this]; unfold byteOf; rw [BitVec.toNat_ofNat]; omega
theorem lead4_byte (c : Nat) (h : c < 0x200000) : (byteOf ((c >>> 18) ||| 0xf0)).toNat = 0xF0 + c / 262144 := by
  rw [Nat.shiftRight_eq_div_pow]
  have : c / 2^18 ||| 0xf0 = 0xf0 + c / 2^18 := or_const 4 (c / 2^18) 15 (by omega)
  rw [this]; unfold byteOf; rw [BitVec.toNat_ofNat]; omega
theorem shift6_cont (c : Nat) : (byteOf (((c >>> 6) &&& 0x3f) ||| 0x80)).toNat = 0x80 + c / 64 % 64 := by
  rw [cont_byte, Nat.shiftRight_eq_div_pow]
theorem shift12_cont (c : Nat) : (byteOf (((c >>> 12) &&& 0x3f) ||| 0x80)).toNat = 0x80 + c / 4096 % 64 := by
  rw [cont_byte, Nat.shiftRight_eq_div_pow]

theorem nonzero_of_toNat {b : Byte} (h : b.toNat ≠ 0) : b ≠ 0#8 := by rintro rfl; exact h rfl

theorem decode2 (b0 b1 : Byte) (c : Nat) (hc : c < 0x800) (h0 : b0.toNat = 0xC0 + c / 64) (h1 : b1.toNat = 0x80 + c % 64) :
    (decode [b0, b1]).toNat = c := by
  have n0 : b0 ≠ 0#8 := nonzero_of_toNat (by omega)
  have n1 : b1 ≠ 0#8 := nonzero_of_toNat (by omega)
  have s0 := strip_lead2 b0 (by omega) (by omega)
  have s1 := strip_cont b1 ⟨by omega, by omega⟩
  unfold decode
  simp only [ne_eq, List.takeWhile_cons, List.takeWhile_nil, n0, n1, not_false_eq_true, decide_true, if_true, List.foldl_cons, List.foldl_nil]
  have f0 := first_toNat b0
  rw [step_toNat _ b1 (by rw [f0]; omega) (by omega), f0]
  omega

theorem decode3 (b0 b1 b2 : Byte) (c : Nat) (hc : c < 0x10000) (h0 : b0.toNat = 0xE0 + c / 4096)
    (h1 : b1.toNat = 0x80 + c / 64 % 64) (h2 : b2.toNat = 0x80 + c % 64) : (decode [b0, b1, b2]).toNat = c := by
  have n0 : b0 ≠ 0#8 := nonzero_of_toNat (by omega)
  have n1 : b1 ≠ 0#8 := nonzero_of_toNat (by omega)
  have n2 : b2 ≠ 0#8 := nonzero_of_toNat (by omega)
  have s0 := strip_lead3 b0 (by omega) (by omega)
  have s1 := strip_cont b1 ⟨by omega, by omega⟩
  have s2 := strip_cont b2 ⟨by omega, by omega⟩
  unfold decode
  simp only [ne_eq, List.takeWhile_cons, List.takeWhile_nil, n0, n1, n2, not_false_eq_true, decide_true, if_true, List.foldl_cons, List.foldl_nil]
  have f0 := first_toNat b0
  have f1 := step_toNat _ b1 (by rw [f0]; omega) (by omega)
  rw [step_toNat _ b2 (by rw [f1, f0]; omega) (by omega), f1, f0]
  omega

theorem decode4 (b0 b1 b2 b3 : Byte) (c : Nat) (hc : c < 0x200000) (h0 : b0.toNat = 0xF0 + c / 262144)
    (h1 : b1.toNat = 0x80 + c / 4096 % 64) (h2 : b2.toNat = 0x80 + c / 64 % 64) (h3 : b3.toNat = 0x80 + c % 64) :
    (decode [b0, b1, b2, b3]).toNat = c := by
  have n0 : b0 ≠ 0#8 := nonzero_of_toNat (by omega)
  have n1 : b1 ≠ 0#8 := nonzero_of_toNat (by omega)
  have n2 : b2 ≠ 0#8 := nonzero_of_toNat (by omega)
  have n3 : b3 ≠ 0#8 := nonzero_of_toNat (by omega)
  have s0 := strip_lead4 b0 (by omega)
  have s1 := strip_cont b1 ⟨by omega, by omega⟩
  have s2 := strip_cont b2 ⟨by omega, by omega⟩
  have s3 := strip_cont b3 ⟨by omega, by omega⟩
  unfold decode
  simp only [ne_eq, List.takeWhile_cons, List.takeWhile_nil, n0, n1, n2, n3, not_false_eq_true, decide_true, if_true, List.foldl_cons, List.foldl_nil]
  have f0 := first_toNat b0
  have f1 := step_toNat _ b1 (by rw [f0]; omega) (by omega)
  have f2 := step_toNat _ b2 (by rw [f1, f0]; omega) (by omega)
  rw [step_toNat _ b3 (by rw [f2, f1, f0]; omega) (by omega), f2, f1, f0]
  omega

/-- `ord` of a single multi-byte character is its decoding. -/
theorem strOrd_multi (b : Byte) (t : List Byte) (h : IsChar (b :: t)) (ht : t ≠ []) :
    strOrd (b :: t) 0 = some (decode (b :: t)).toInt := by
  have hT : IsText [b :: t] := by intro c hc; simp at hc; subst hc; exact h
  have hcc : charCount (b :: t) = 1 := by have := charCount_text hT; simpa using this
  have hoff : charOffset (b :: t) 0 0 = 0 := by have := charOffset_text hT 0 0; simpa using this
  have hlen : 1 ≤ t.length := by
    rcases t with _ | ⟨x, t⟩
    · exact absurd rfl ht
    · simp
  unfold strOrd
  rw [if_pos (Or.inr (by rw [hcc]; simp; omega)), if_neg (by omega)]
  simp [hoff]

theorem toInt_of_small (u : BitVec 64) (c : Nat) (h : u.toNat = c) (hc : c < 2^63) : u.toInt = c := by
  rw [BitVec.toInt_eq_toNat_cond, h, if_pos (by omega)]

end Potion.Str
