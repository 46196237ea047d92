import Verif.Proof.StrSlice
import Verif.Proof.Word
import Verif.Spec.Word
/-! # C18 – C20: UTF-8 strings -/
namespace Potion.Props
open Potion Potion.Str Potion.Spec

/-! ## C18 -/

/-- C18: whatever the address (alignment) of the text and whatever follows its NUL byte, `length` is the number of bytes
that are not continuation bytes. (`fuel`: any bound on the number of words scanned.) -/
theorem C18_length (mem : Nat → BitVec 8) (addr : Nat) (s : List (BitVec 8)) (hs : HoldsAt mem addr s)
    (fuel : Nat) (hf : s.length < fuel * 8) :
    strlenUtf8 mem addr fuel = some (s.countP (fun b => decide (¬ Continuation b))) := by
  rw [headLoop_aligned mem addr fuel s hs hf]
  have h1 : s.countP isCont + s.countP (fun b => decide (¬ Continuation b)) = s.length := by
    clear hf hs
    induction s with
    | nil => rfl
    | cons b s ih =>
      rw [List.countP_cons, List.countP_cons, List.length_cons]
      by_cases hb : Continuation b
      · have : isCont b = true := (isCont_iff b).2 hb
        simp [this, hb]; simp at ih; omega
      · have : isCont b = false := by
          cases h : isCont b
          · rfl
          · exact absurd ((isCont_iff b).1 h) hb
        simp [this, hb]; simp at ih; omega
  congr 1; omega

/-- C18: the length of a text is its number of characters. -/
theorem C18_length_text (mem : Nat → BitVec 8) (addr : Nat) (cs : List (List (BitVec 8))) (hc : IsText cs)
    (hs : HoldsAt mem addr cs.flatten) (fuel : Nat) (hf : cs.flatten.length < fuel * 8) :
    strlenUtf8 mem addr fuel = some cs.length := by
  rw [C18_length mem addr _ hs fuel hf, ← charCount_text hc]
  unfold charCount
  rw [takeWhile_text hc]
  congr 2
  funext b
  by_cases hb : Continuation b
  · have : isCont b = true := (isCont_iff b).2 hb
    simp [this, hb]
  · have : isCont b = false := by
      cases h : isCont b
      · rfl
      · exact absurd ((isCont_iff b).1 h) hb
    simp [this, hb]

/-- "aé€" at the odd address 3, followed by garbage. -/
example : HoldsAt (fun i => ([1,2,3,0x61,0xC3,0xA9,0xE2,0x82,0xAC,0,0xFF] : List (BitVec 8)).getD i 7) 3
      [0x61#8,0xC3#8,0xA9#8,0xE2#8,0x82#8,0xAC#8] ∧ IsText [[0x61#8],[0xC3#8,0xA9#8],[0xE2#8,0x82#8,0xAC#8]] := by
  refine ⟨⟨?_, by decide, by decide⟩, by decide⟩
  decide

/-! ## C19 -/

/-- Character position denoted by an index: negative indices count from the end; positions are clamped to the text. -/
def clampPos (n : Nat) (i : Int) : Nat := (max 0 (min (n : Int) (if i < 0 then n + i else i))).toNat

theorem sliceIndex_eq (i : Int) (n d : Nat) : sliceIndex (some i) n d = clampPos n i := by
  unfold sliceIndex clampPos
  simp only []
  by_cases h : i < 0
  · rw [if_pos h, if_pos h]
    by_cases h2 : i + (n:Int) < 0
    · rw [if_pos h2]; omega
    · rw [if_neg h2]; omega
  · rw [if_neg h, if_neg h]
    by_cases h2 : i > (n:Int)
    · rw [if_pos h2]; omega
    · rw [if_neg h2]; omega

theorem pnNum_lt_iff {a b : Int} (ha : InRange a) (hb : InRange b) :
    (pnNum a).toNat < (pnNum b).toNat ↔ (if a < 0 then a + 2^63 else a) < (if b < 0 then b + 2^63 else b) := by
  have key : ∀ x : Int, InRange x → ((pnNum x).toNat : Int) = 2 * (if x < 0 then x + 2^63 else x) + 1 := by
    intro x hx
    rw [toNat_pnNum]
    obtain ⟨h1, h2⟩ := hx
    by_cases h : x < 0
    · rw [if_pos h]; omega
    · rw [if_neg h]; omega
  have h1 := key a ha
  have h2 := key b hb
  omega

/-- C19 `slice(start, end)`: for every text and integers `start`, `end` of the same sign with `start ≤ end`, or
`0 ≤ start`, `end < 0` with the position of `start` not after that of `end`, the result consists of exactly the
characters between the two positions; no character is split and nothing outside the text is read (the result does not
depend on the bytes `junk` after it). What is missing: the other combinations, see the refutations below. -/
theorem C19_slice_partial (cs : List (List (BitVec 8))) (hc : IsText cs) (junk : Nat → BitVec 8) (start stop : Int)
    (h1 : InRange start) (h2 : InRange stop)
    (hle : (start ≤ stop ∧ (start < 0 ↔ stop < 0)) ∨ (0 ≤ start ∧ stop < 0 ∧ clampPos cs.length start ≤ clampPos cs.length stop)) :
    strSlice cs.flatten junk (some start) (some stop) =
      some ((cs.take (clampPos cs.length stop)).drop (clampPos cs.length start)).flatten := by
  unfold strSlice
  simp only []
  have hn : ¬ (pnNum stop).toNat < (pnNum start).toNat := by
    rw [pnNum_lt_iff h2 h1]
    obtain ⟨_, _⟩ := h1; obtain ⟨_, _⟩ := h2
    rcases hle with ⟨ha, hb⟩ | ⟨ha, hb, _⟩
    · by_cases h : start < 0
      · rw [if_pos h, if_pos (hb.1 h)]; omega
      · rw [if_neg h, if_neg (fun hh => h (hb.2 hh))]; omega
    · rw [if_pos hb, if_neg (by omega)]; omega
  simp only [if_neg hn]
  rw [charCount_text hc, sliceIndex_eq, sliceIndex_eq, charOffset_text hc, charOffset_text hc, Nat.zero_add, Nat.zero_add]
  apply copy_chars
  rcases hle with ⟨ha, hb⟩ | ⟨_, _, hd⟩
  · unfold clampPos
    by_cases h : start < 0
    · rw [if_pos h, if_pos (hb.1 h)]; omega
    · rw [if_neg h, if_neg (fun hh => h (hb.2 hh))]; omega
  · exact hd

/-- C19: `slice(start)` with `0 ≤ start ≤ length`: the text from that character on; `slice()` is the whole text. -/
theorem C19_slice_from_partial (cs : List (List (BitVec 8))) (hc : IsText cs) (junk : Nat → BitVec 8) (start : Nat)
    (h : start ≤ cs.length) (hlen : (cs.length : Int) < 2^61) :
    strSlice cs.flatten junk (some start) none = some (cs.drop start).flatten ∧
    strSlice cs.flatten junk none none = some cs.flatten := by
  refine ⟨?_, rfl⟩
  have := C19_slice_partial cs hc junk start cs.length ⟨by omega, by omega⟩ ⟨by omega, by omega⟩ (Or.inl ⟨by omega, by omega⟩)
  unfold strSlice at this ⊢
  simp only [charCount_text hc] at this ⊢
  rw [this]
  have e1 : clampPos cs.length cs.length = cs.length := by unfold clampPos; rw [if_neg (by omega)]; omega
  have e2 : clampPos cs.length start = start := by unfold clampPos; rw [if_neg (by omega)]; omega
  rw [e1, e2, List.take_length]

/-- C19 `s(i)`: for `-length ≤ i < length` the i-th character (negative from the end), whatever follows the text. -/
theorem C19_at (cs : List (List (BitVec 8))) (hc : IsText cs) (junk : Nat → BitVec 8) (i : Int)
    (hlo : -(cs.length : Int) ≤ i) (hhi : i < cs.length) (fuel : Nat) (hf : cs.flatten.length < fuel) :
    ∃ h : (if i < 0 then i + cs.length else i).toNat < cs.length,
    strAt cs.flatten junk fuel i = some cs[(if i < 0 then i + cs.length else i).toNat] := by
  have hpos : (if i < 0 then i + (cs.length : Int) else i).toNat < cs.length := by
    by_cases h : i < 0
    · rw [if_pos h]; omega
    · rw [if_neg h]; omega
  refine ⟨hpos, ?_⟩
  unfold strAt
  have hst : (if i < 0 then sliceIndex (some i) (charCount cs.flatten) 0 else i.toNat)
      = (if i < 0 then i + (cs.length : Int) else i).toNat := by
    by_cases h : i < 0
    · rw [if_pos h, if_pos h, charCount_text hc, sliceIndex_eq]; unfold clampPos; rw [if_pos h]; omega
    · rw [if_neg h, if_neg h]
  simp only [hst]
  generalize (if i < 0 then i + (cs.length : Int) else i).toNat = k at hpos
  rw [charOffset_text hc, Nat.zero_add, nextChar_text hc junk k fuel hpos hf]
  simp only []
  rw [copy_chars junk k (k+1) (by omega)]
  rw [List.take_add_one, List.getElem?_eq_getElem hpos]
  rw [List.drop_append]
  simp [Nat.min_eq_left (Nat.le_of_lt hpos)]

/-- "aé€z" -/
def sampleText : List (List (BitVec 8)) := [[0x61], [0xC3, 0xA9], [0xE2, 0x82, 0xAC], [0x7A]]
example : IsText sampleText ∧ strAt sampleText.flatten (fun _ => 0x80) 20 (-2) = some [0xE2, 0x82, 0xAC] ∧
    strSlice sampleText.flatten (fun _ => 0x80) (some 1) (some (-1)) = some [0xC3, 0xA9, 0xE2, 0x82, 0xAC] := by decide

/-- C19 (finding): `slice(-k)` without an end returns one character instead of the last `k`: the default end
is smaller, as a tagged unsigned number, than the negative start, so `end` becomes `start + end + 1`. -/
theorem C19_slice_negative_start (cs : List (List (BitVec 8))) (hc : IsText cs) (junk : Nat → BitVec 8) (k : Nat)
    (hk : 0 < k) (hkl : k < cs.length) (hlen : (cs.length : Int) < 2^61) :
    strSlice cs.flatten junk (some (-(k:Int))) none = some ((cs.drop (cs.length - k)).take 1).flatten := by
  unfold strSlice
  simp only [charCount_text hc]
  have hn : (pnNum (cs.length : Int)).toNat < (pnNum (-(k : Int))).toNat := by
    rw [pnNum_lt_iff ⟨by omega, by omega⟩ ⟨by omega, by omega⟩]
    rw [if_neg (by omega), if_pos (by omega)]; omega
  simp only [if_pos hn]
  rw [if_neg (by omega : ¬ (-(k : Int) + cs.length + 1 = 0)), sliceIndex_eq, sliceIndex_eq, charOffset_text hc,
    charOffset_text hc, Nat.zero_add, Nat.zero_add]
  have e1 : clampPos cs.length (-(k:Int)) = cs.length - k := by unfold clampPos; rw [if_pos (by omega)]; omega
  have e2 : clampPos cs.length (-(k:Int) + cs.length + 1) = cs.length - k + 1 := by
    unfold clampPos; rw [if_neg (by omega)]; omega
  rw [e1, e2, copy_chars junk _ _ (by omega)]
  congr 2
  rw [List.drop_take]
  congr 1; omega

/-- C19 (refuted): concrete failures. On "abcdef": `slice(-2)` is "e" (not "ef"), `slice(2,1)` is "cd" (neither empty
nor one character), `slice(-2,3)` and, on "abc", `slice(2,-3)` compute a negative length (undefined behaviour); and
`"a"(1)`, an index equal to the length, returns a string that contains the NUL and the bytes after it. -/
theorem C19_refuted :
    strSlice [0x61,0x62,0x63,0x64,0x65,0x66] (fun _ => 0x80) (some (-2)) none = some [0x65] ∧
    strSlice [0x61,0x62,0x63,0x64,0x65,0x66] (fun _ => 0x80) (some 2) (some 1) = some [0x63, 0x64] ∧
    strSlice [0x61,0x62,0x63,0x64,0x65,0x66] (fun _ => 0x80) (some (-2)) (some 3) = none ∧
    strSlice [0x61,0x62,0x63] (fun _ => 0x80) (some 2) (some (-3)) = none ∧
    strAt [0x61] (fun i => if i = 3 then 0x41 else 0x80) 9 1 = some [0, 0x80] := by
  decide

/-! ## C20 -/

/-- The code points whose escape is not their UTF-8 encoding. -/
def escExceptions (big : Bool) (c : Nat) : Prop :=
  c = 0xC0 ∨ c = 0xC1 ∨ c = 0x7FF ∨ (big ∧ (c = 0xFFFF ∨ c = 0x10FFFF))

instance (b : Bool) (c : Nat) : Decidable (escExceptions b c) := inferInstanceAs (Decidable (_ ∨ _))

theorem byteOf_ascii (c : Nat) (h : c < 0x80) : (byteOf c).toNat = c := by
  unfold byteOf; rw [BitVec.toNat_ofNat]; omega

/-- C20 `\uXXXX`: every Unicode scalar value below 2^16 except C0, C1 and 7FF is encoded as UTF-8. -/
theorem C20_escape_u_partial (c : Nat) (hs : Scalar c) (h16 : c < 0x10000) (hx : ¬ escExceptions false c) :
    ∃ bs, escu c = some bs ∧ bs.map BitVec.toNat = utf8 c := by
  have hx' : c ≠ 0xC0 ∧ c ≠ 0xC1 ∧ c ≠ 0x7FF := by
    refine ⟨?_, ?_, ?_⟩ <;> (rintro rfl; exact hx (by decide))
  unfold escu utf8
  by_cases h1 : c < 0x80
  · rw [if_pos h1, if_pos h1]
    exact ⟨_, rfl, by simp [byteOf_ascii c h1]⟩
  · rw [if_neg h1, if_neg h1]
    by_cases h2 : c < 0x7ff
    · rw [if_pos h2, if_neg (by omega : ¬ (c = 0xC0 ∨ c = 0xC1)), if_pos (by omega : c < 0x800)]
      exact ⟨_, rfl, by simp [lead2_byte c (by omega), cont_byte]⟩
    · rw [if_neg h2, if_neg (by omega : ¬ c < 0x800), if_pos h16]
      have : ¬ (c ≥ 0xD800 ∧ c < 0xDFFF) := by unfold Scalar at hs; omega
      rw [if_neg this]
      exact ⟨_, rfl, by rw [List.map_cons, List.map_cons, List.map_cons, List.map_nil, lead3_byte c h16, shift6_cont, cont_byte c]⟩

/-- C20 `\U{X...}`: every Unicode scalar value except C0, C1, 7FF, FFFF and 10FFFF is encoded as UTF-8. -/
theorem C20_escape_U_partial (c : Nat) (hs : Scalar c) (hx : ¬ escExceptions true c) :
    ∃ bs, escU c = some bs ∧ bs.map BitVec.toNat = utf8 c := by
  have hx' : c ≠ 0xC0 ∧ c ≠ 0xC1 ∧ c ≠ 0x7FF ∧ c ≠ 0xFFFF ∧ c ≠ 0x10FFFF := by
    refine ⟨?_, ?_, ?_, ?_, ?_⟩ <;> (rintro rfl; exact hx (by decide))
  unfold Scalar at hs
  unfold escU utf8
  by_cases h1 : c < 0x80
  · rw [if_pos h1, if_pos h1]
    exact ⟨_, rfl, by simp [byteOf_ascii c h1]⟩
  · rw [if_neg h1, if_neg h1]
    by_cases h2 : c < 0x7ff
    · rw [if_pos h2, if_neg (by omega : ¬ (c = 0xC0 ∨ c = 0xC1)), if_pos (by omega : c < 0x800)]
      exact ⟨_, rfl, by simp [lead2_byte c (by omega), cont_byte]⟩
    · rw [if_neg h2, if_neg (by omega : ¬ c < 0x800)]
      by_cases h3 : c < 0xffff
      · rw [if_pos h3, if_pos (by omega : c < 0x10000), if_neg (by omega : ¬ (c ≥ 0xD800 ∧ c < 0xDFFF))]
        exact ⟨_, rfl, by rw [List.map_cons, List.map_cons, List.map_cons, List.map_nil, lead3_byte c (by omega), shift6_cont, cont_byte c]⟩
      · rw [if_neg h3, if_pos (by omega : c < 0x10ffff), if_neg (by omega : ¬ c < 0x10000)]
        exact ⟨_, rfl, by rw [List.map_cons, List.map_cons, List.map_cons, List.map_cons, List.map_nil, lead4_byte c (by omega), shift6_cont, shift12_cont, cont_byte c]⟩

/-- C20 (refuted): "À" (C0) and "Á" (C1) are syntax errors, U+7FF and (with `\U`) U+FFFF get overlong encodings,
U+10FFFF is rejected, and the surrogate DFFF is accepted. -/
theorem C20_refuted :
    escu 0xC0 = none ∧ escU 0xC1 = none ∧ escu 0x7FF = some [0xE0, 0x9F, 0xBF] ∧ utf8 0x7FF = [0xDF, 0xBF] ∧
    escU 0xFFFF = some [0xF0, 0x8F, 0xBF, 0xBF] ∧ utf8 0xFFFF = [0xEF, 0xBF, 0xBF] ∧
    escU 0x10FFFF = none ∧ escu 0xDFFF = some [0xED, 0xBF, 0xBF] ∧ ¬ Scalar 0xDFFF := by decide

theorem isChar_of (b : BitVec 8) (t : List (BitVec 8)) (hb : 0xC0 ≤ b.toNat) (ht : ∀ x ∈ t, Continuation x) :
    IsChar (b :: t) :=
  ⟨nonzero_of_toNat (by omega), fun h => by have := h.2; omega, ht⟩

/-- C20: whenever an escape (either form) is accepted, for a non-zero code point, `ord` of the resulting one-character
string gives the code point back – also for the wrong (overlong, surrogate) encodings. -/
theorem C20_ord_roundtrip (c : Nat) (hc : 0 < c) (bs : List (BitVec 8))
    (h : (c < 0x10000 ∧ escu c = some bs) ∨ escU c = some bs) : strOrd bs 0 = some (c : Int) := by
  have ascii : ∀ c : Nat, 0 < c → c < 0x80 → strOrd [byteOf c] 0 = some (c : Int) := by
    have : ∀ c : Fin 128, 0 < c.1 → strOrd [byteOf c.1] 0 = some ((c.1 : Nat) : Int) := by decide +kernel
    intro c h1 h2; exact this ⟨c, h2⟩ h1
  have two : ∀ c : Nat, 0x80 ≤ c → c < 0x7ff →
      strOrd [byteOf ((c >>> 6) ||| 0xc0), byteOf ((c &&& 0x3f) ||| 0x80)] 0 = some (c : Int) := by
    intro c h1 h2
    have a := lead2_byte c (by omega)
    have b := cont_byte c
    rw [strOrd_multi _ _ (isChar_of _ _ (by omega) (by intro x hx; simp at hx; subst hx; exact ⟨by omega, by omega⟩)) (by simp),
      toInt_of_small _ c (decode2 _ _ c (by omega) a b) (by omega)]
  have three : ∀ c : Nat, 0x7ff ≤ c → c < 0x10000 →
      strOrd [byteOf ((c >>> 12) ||| 0xe0), byteOf (((c >>> 6) &&& 0x3f) ||| 0x80), byteOf ((c &&& 0x3f) ||| 0x80)] 0
        = some (c : Int) := by
    intro c h1 h2
    have a := lead3_byte c (by omega)
    have b := shift6_cont c
    have d := cont_byte c
    rw [strOrd_multi _ _ (isChar_of _ _ (by omega)
      (by intro x hx; simp only [List.mem_cons, List.not_mem_nil, or_false] at hx
          rcases hx with rfl | rfl <;> exact ⟨by omega, by omega⟩)) (by simp),
      toInt_of_small _ c (decode3 _ _ _ c (by omega) a b d) (by omega)]
  have four : ∀ c : Nat, 0xffff ≤ c → c < 0x10ffff →
      strOrd [byteOf ((c >>> 18) ||| 0xf0), byteOf (((c >>> 12) &&& 0x3f) ||| 0x80),
        byteOf (((c >>> 6) &&& 0x3f) ||| 0x80), byteOf ((c &&& 0x3f) ||| 0x80)] 0 = some (c : Int) := by
    intro c h1 h2
    have a := lead4_byte c (by omega)
    have b := shift12_cont c
    have d := shift6_cont c
    have e := cont_byte c
    rw [strOrd_multi _ _ (isChar_of _ _ (by omega)
      (by intro x hx; simp only [List.mem_cons, List.not_mem_nil, or_false] at hx
          rcases hx with rfl | rfl | rfl <;> exact ⟨by omega, by omega⟩)) (by simp),
      toInt_of_small _ c (decode4 _ _ _ _ c (by omega) a b d e) (by omega)]
  rcases h with ⟨h16, h⟩ | h
  · unfold escu at h
    by_cases h1 : c < 0x80
    · rw [if_pos h1] at h; obtain rfl := Option.some.inj h; exact ascii c hc h1
    rw [if_neg h1] at h
    by_cases h2 : c < 0x7ff
    · rw [if_pos h2] at h
      by_cases h3 : c = 0xC0 ∨ c = 0xC1
      · rw [if_pos h3] at h; cases h
      · rw [if_neg h3] at h; obtain rfl := Option.some.inj h; exact two c (by omega) h2
    rw [if_neg h2] at h
    by_cases h3 : c ≥ 0xD800 ∧ c < 0xDFFF
    · rw [if_pos h3] at h; cases h
    · rw [if_neg h3] at h; obtain rfl := Option.some.inj h; exact three c (by omega) h16
  · unfold escU at h
    by_cases h1 : c < 0x80
    · rw [if_pos h1] at h; obtain rfl := Option.some.inj h; exact ascii c hc h1
    rw [if_neg h1] at h
    by_cases h2 : c < 0x7ff
    · rw [if_pos h2] at h
      by_cases h3 : c = 0xC0 ∨ c = 0xC1
      · rw [if_pos h3] at h; cases h
      · rw [if_neg h3] at h; obtain rfl := Option.some.inj h; exact two c (by omega) h2
    rw [if_neg h2] at h
    by_cases h3 : c < 0xffff
    · rw [if_pos h3] at h
      by_cases h4 : c ≥ 0xD800 ∧ c < 0xDFFF
      · rw [if_pos h4] at h; cases h
      · rw [if_neg h4] at h; obtain rfl := Option.some.inj h; exact three c (by omega) (by omega)
    rw [if_neg h3] at h
    by_cases h4 : c < 0x10ffff
    · rw [if_pos h4] at h; obtain rfl := Option.some.inj h; exact four c (by omega) h4
    · rw [if_neg h4] at h; cases h

example : (escU 0x20AC).isSome ∧ (escu 0x7FF).isSome ∧ Scalar 0x1F600 ∧ ¬ escExceptions true 0x1F600 := by decide

end Potion.Props
