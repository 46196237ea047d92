import Verif.Model.Buffile
import Verif.Props.Files
import Verif.Props.Strings
/-!
C84: buffered files. `overwrite` (C56) puts bytes at a position; `Continuation` is a byte 10xxxxxx.
-/
namespace Potion.Buffile
open Potion Potion.Spec

/-! ## Reading lines -/

theorem mGets_lobby (s : Stream) (hr : s.canRead = true) :
    (File.lobbyRead (s.data.drop s.pos)).1 = (match (mGets s).2 with | .bytes l => some l | _ => none) ∧
      (mGets s).1.canRead = true ∧ (mGets s).1.data = s.data ∧
      (File.lobbyRead (s.data.drop s.pos)).2 = s.data.drop (mGets s).1.pos := by
  obtain ⟨h1, h2, h3, h4, h5⟩ := Props.fgets_spec 1023 (s.data.drop s.pos)
  generalize hl : (File.fgetsLoop 1023 (s.data.drop s.pos)) = lr at h1 h2 h3 h4 h5
  obtain ⟨l, r⟩ := lr
  simp only at h1 h2 h3 h4 h5
  by_cases he : s.data.drop s.pos = []
  · have : l = [] := by rw [he] at h1; simp at h1; exact h1.1
    subst this
    rw [he] at hl
    simp [mGets, fgets, hr, hl, File.lobbyRead, he]
  · have hn : l ≠ [] := h5 (by omega) he
    simp only [mGets, fgets, hr, hl, File.lobbyRead, he, if_true, if_neg hn, if_false, true_and]
    rw [← List.drop_drop, ← h1]
    simp

theorem allLines_eq (fuel : Nat) (s : Stream) (hr : s.canRead = true) :
    allLines fuel s = File.readAll fuel (s.data.drop s.pos) := by
  induction fuel generalizing s with
  | zero => rfl
  | succ f ih =>
    obtain ⟨a, b, c, d⟩ := mGets_lobby s hr
    unfold allLines File.readAll
    generalize File.lobbyRead (s.data.drop s.pos) = q at a d
    obtain ⟨q1, q2⟩ := q
    generalize mGets s = g at a b c d
    obtain ⟨s', res⟩ := g
    simp only at a b c d
    cases res <;> simp only at a <;> subst a <;> simp only
    rw [ih s' b, c, d]

/-- C84: reading the lines of a buffered file without NUL bytes, from where it is, gives all of its bytes, in order; every
piece ends at a newline, or is 1023 bytes long, or is the last one; no piece is empty. -/
theorem C84_lines_partial (s : Stream) (hr : s.canRead = true) (hz : 0#8 ∉ s.data) (fuel : Nat)
    (hf : s.data.length < fuel) :
    (allLines fuel s).flatten = s.data.drop s.pos ∧
      (∀ l ∈ allLines fuel s, l ≠ [] ∧ l.length ≤ 1023 ∧ ∀ a b r, l = a ++ b :: r → b = 0x0a#8 → r = []) ∧
      (∀ l ∈ (allLines fuel s).dropLast, l.length = 1023 ∨ l.getLast? = some 0x0a#8) := by
  rw [allLines_eq fuel s hr]
  exact Props.C57_lines _ (fun h => hz (List.mem_of_mem_drop h)) fuel (by simp; omega)

/-! ## Reading bytes -/

/-- C84: `fgetc` gives the bytes of the file one after the other, then -1 for ever. -/
theorem C84_bytes (s : Stream) (hr : s.canRead = true) (n i : Nat) (hi : i < n) :
    (getcs n s).1[i]? = some (.num (match s.data[s.pos + i]? with | some b => (b.toNat : Int) | none => -1)) := by
  induction n generalizing s i with
  | zero => omega
  | succ n ih =>
    cases e : s.data[s.pos]? with
    | some b =>
      cases i with
      | zero => simp [getcs, mGetc, fgetc, hr, e]
      | succ i =>
        have := ih { s with pos := s.pos + 1 } hr i (by omega)
        simp only [hr] at this
        simp only [getcs, mGetc, fgetc, hr, e, if_true, List.getElem?_cons_succ]
        rw [this]
        simp [Nat.add_comm, Nat.add_left_comm]
    | none =>
      have hp : s.data.length ≤ s.pos := List.getElem?_eq_none_iff.1 e
      cases i with
      | zero => simp [getcs, mGetc, fgetc, hr, e]
      | succ i =>
        have := ih { s with eof := true } hr i (by omega)
        simp only [hr] at this
        simp only [getcs, mGetc, fgetc, hr, e, if_true, List.getElem?_cons_succ]
        rw [this]
        have h1 : s.data[s.pos + i]? = none := List.getElem?_eq_none_iff.2 (by omega)
        have h2 : s.data[s.pos + (i + 1)]? = none := List.getElem?_eq_none_iff.2 (by omega)
        simp [h1, h2]

/-- C84: the end of the file is reported after a read has met it, and not before: `fgetc` gives -1 exactly if `feof` is true
after it, given that it was false. -/
theorem C84_eof (s : Stream) (hr : s.canRead = true) (he : s.eof = false) :
    ((mGetc s).2 = .num (-1) ↔ mEof (mGetc s).1 = .bool true) ∧
      (mEof (mGetc s).1 = .bool true ↔ s.data.length ≤ s.pos) := by
  cases e : s.data[s.pos]? with
  | some b =>
    have : s.pos < s.data.length := (List.getElem?_eq_some_iff.1 e).1
    have hb : (b.toNat : Int) ≠ -1 := by omega
    simp [mGetc, fgetc, hr, e, mEof, he, hb, this]
  | none =>
    have hp : s.data.length ≤ s.pos := List.getElem?_eq_none_iff.1 e
    simp [mGetc, fgetc, hr, e, mEof, hp]

/-! ## Writing -/

/-- A stream that can be written. -/
def Writable (s : Stream) : Prop := s.canWrite = true ∧ s.full = false

/-- Where the next byte goes. -/
def at_ (s : Stream) : Nat := if s.append then s.data.length else s.pos

theorem put_ok {s : Stream} (h : Writable s) (l : List Byte) :
    put s l = ({ s with data := File.overwrite s.data (at_ s) l, pos := at_ s + l.length }, true) := by
  simp [put, h.1, h.2, at_]

theorem mWrite_of {s : Stream} (h : Writable s) (b : Buf) (k : Nat) (hk : b.length = some k) (h0 : k ≠ 0)
    (hle : k ≤ b.chars.length) :
    mWrite s b none 1 = some ({ s with data := File.overwrite s.data (at_ s) (b.chars.take k), pos := at_ s + k }, .num 1) := by
  have : (b.chars ++ [0#8]).take k = b.chars.take k := List.take_append_of_le_length hle
  simp only [mWrite, if_true, hk, Nat.mul_one, if_neg h0, if_neg (show ¬ b.chars.length + 1 < k by omega), this]
  rw [put_ok h]
  simp [List.length_take, Nat.min_eq_left hle]

/-- C84: `write` of a Bytes object that is not empty puts all of its bytes where the file is (at its end, if it was opened
for appending), and nothing else; the answer is 1. -/
theorem C84_write_bytes {s : Stream} (h : Writable s) (b : List Byte) (hb : b ≠ []) :
    mWrite s (.bytes b) none 1 =
      some ({ s with data := File.overwrite s.data (at_ s) b, pos := at_ s + b.length }, .num 1) := by
  have := mWrite_of h (.bytes b) b.length rfl (fun e => hb (List.eq_nil_of_length_eq_zero e)) (le_refl _)
  rw [this]; simp [Buf.chars]

theorem str_length (t : List Byte) (hz : 0#8 ∉ t) :
    (Buf.str t).length = some (t.countP (fun b => decide (¬ Continuation b))) := by
  apply Props.C18_length
  · refine ⟨fun i h => by simp [h], by simp, fun b hb e => hz (e ▸ hb)⟩
  · omega

/-- C84: `write` of a string in which every character is one byte. -/
theorem C84_write_ascii {s : Stream} (h : Writable s) (t : List Byte) (ht : t ≠ []) (hz : 0#8 ∉ t)
    (ha : ∀ b ∈ t, ¬ Continuation b) :
    mWrite s (.str t) none 1 =
      some ({ s with data := File.overwrite s.data (at_ s) t, pos := at_ s + t.length }, .num 1) := by
  have hc : t.countP (fun b => decide (¬ Continuation b)) = t.length := by
    rw [List.countP_eq_length]; simpa using ha
  have := mWrite_of h (.str t) t.length (by rw [str_length t hz, hc]) (fun e => ht (List.eq_nil_of_length_eq_zero e))
    (le_refl _)
  rw [this]; simp [Buf.chars]

/-- C84 fails for every string with a character of more than one byte: `write` answers 1, and has written only as many
*bytes* as the string has characters: the end of the text is lost. -/
theorem C84_refuted_write {s : Stream} (h : Writable s) (t : List Byte) (hz : 0#8 ∉ t) (c : Byte) (hc : c ∈ t)
    (hcc : Continuation c) (hs : ∃ b ∈ t, ¬ Continuation b) :
    ∃ k s', k < t.length ∧ k = t.countP (fun b => decide (¬ Continuation b)) ∧ mWrite s (.str t) none 1 = some (s', .num 1) ∧
      s'.data = File.overwrite s.data (at_ s) (t.take k) := by
  have h1 := str_length t hz
  have hlt : t.countP (fun b => decide (¬ Continuation b)) < t.length := by
    refine lt_of_le_of_ne List.countP_le_length (fun e => ?_)
    have := List.countP_eq_length.1 e c hc
    simp [hcc] at this
  have hpos : t.countP (fun b => decide (¬ Continuation b)) ≠ 0 := by
    obtain ⟨b, hb, hn⟩ := hs
    intro e
    have := List.countP_eq_zero.1 e b hb
    simp [hn] at this
  refine ⟨_, _, hlt, rfl, mWrite_of h (.str t) _ h1 hpos hlt.le, rfl⟩

/-- C84 fails: writing nothing is reported as an error. -/
theorem C84_refuted_empty (s : Stream) : mWrite s (.bytes []) none 1 = some (s, .err) ∧ mWrite s (.str []) none 1 = some (s, .err) := by
  have := str_length [] (by simp)
  constructor
  · simp [mWrite, Buf.length]
  · simp only [mWrite, this]; simp

/-- C84: what was written is what is read back: after a `write` of bytes at the position, going back there and reading as
many bytes gives them. -/
theorem C84_read_back {s : Stream} (h : Writable s) (hr : s.canRead = true) (b : List Byte) (hb : b ≠ [])
    (buf : List Byte) (hl : b.length ≤ buf.length) :
    ∃ s1 s2 s3, mWrite s (.bytes b) none 1 = some (s1, .num 1) ∧ mSeek s1 (at_ s) 0 = (s2, .bool true) ∧
      mRead s2 buf b.length 1 = (s3, b ++ buf.drop b.length, .num 1) ∧ s3.data = s1.data ∧ s3.pos = s1.pos := by
  refine ⟨_, { s with data := File.overwrite s.data (at_ s) b, pos := at_ s, eof := false },
    { s with data := File.overwrite s.data (at_ s) b, pos := at_ s + b.length, eof := false }, C84_write_bytes h b hb,
    by simp [mSeek], ?_⟩
  have hd : ((File.overwrite s.data (at_ s) b).drop (at_ s)).take b.length = b := by
    have : (s.data.take (at_ s) ++ List.replicate (at_ s - s.data.length) 0#8).length = at_ s := by
      simp; omega
    unfold File.overwrite
    rw [List.append_assoc, List.drop_append_of_le_length (by omega), List.drop_of_length_le (by omega)]
    simp
  have hpos : b.length ≠ 0 := fun e => hb (List.eq_nil_of_length_eq_zero e)
  have hrd : ∀ eof, fread ⟨File.overwrite s.data (at_ s) b, at_ s, eof, s.canRead, s.canWrite, s.append, s.full⟩ b.length 1 =
      (⟨File.overwrite s.data (at_ s) b, at_ s + b.length, eof, s.canRead, s.canWrite, s.append, s.full⟩, b, 1) := by
    intro eof
    simp only [fread, hr, Nat.mul_one, hd]
    simp [hpos, Nat.div_self (Nat.pos_of_ne_zero hpos)]
  refine ⟨?_, ?_, ?_⟩
  · simp only [mRead, hrd, if_neg (show ¬ buf.length < b.length by omega)]; simp
  · rfl
  · rfl

/-- C84: with a size and a number of items, `write` writes the first size · n bytes and answers n. -/
theorem C84_write_items {s : Stream} (h : Writable s) (b : Buf) (k n : Nat) (h0 : k * n ≠ 0)
    (hle : k * n ≤ b.chars.length) : mWrite s b (some k) n =
      some ({ s with data := File.overwrite s.data (at_ s) (b.chars.take (k * n)), pos := at_ s + k * n }, .num n) := by
  have e : (b.chars ++ [0#8]).take (k * n) = b.chars.take (k * n) := List.take_append_of_le_length hle
  simp only [mWrite, if_neg h0, if_neg (show ¬ b.chars.length + 1 < k * n by omega), e, put_ok h]
  simp [List.length_take, Nat.min_eq_left hle]

/-- C84 fails: the size given is not compared with the text: bytes outside of it are read. -/
theorem C84_refuted_write_outside (s : Stream) (b : Buf) (k n : Nat) (h : b.chars.length + 1 < k * n) :
    mWrite s b (some k) n = some (s, .outside) := by
  simp only [mWrite, if_neg (show k * n ≠ 0 by omega), if_pos h]

/-- C84: `fread` of n items of a size that the file still has and the buffer has room for: exactly these bytes, in the
buffer from its start; the rest of the buffer stays; the answer is n. -/
theorem C84_read_items (s : Stream) (hr : s.canRead = true) (buf : List Byte) (k n : Nat) (h0 : k * n ≠ 0)
    (hle : k * n ≤ (s.data.drop s.pos).length) (hb : k * n ≤ buf.length) :
    mRead s buf k n = ({ s with pos := s.pos + k * n },
      (s.data.drop s.pos).take (k * n) ++ buf.drop (k * n), .num n) := by
  have hk : 0 < k := Nat.pos_of_ne_zero (fun e => h0 (by simp [e]))
  have hl : ((s.data.drop s.pos).take (k * n)).length = k * n := by rw [List.length_take]; omega
  simp only [mRead, fread, hr, true_and, if_pos h0, hl, Nat.mul_div_cancel_left n hk, lt_irrefl, if_false,
    decide_false, Bool.or_false, if_neg (show ¬ buf.length < k * n by omega), ne_eq]

/-- C84: a number is written as one byte, its remainder by 256. -/
theorem C84_fputc {s : Stream} (h : Writable s) (c : Int) :
    mPutc s c = ({ s with data := File.overwrite s.data (at_ s) [BitVec.ofInt 8 c], pos := at_ s + 1 }, .num (c % 256)) := by
  simp only [mPutc, put_ok h]
  simp [BitVec.toNat_ofInt]; omega

theorem noNul (t : List Byte) (hz : 0#8 ∉ t) : t.takeWhile (fun x => decide (x ≠ 0#8)) = t := by
  induction t with
  | nil => rfl
  | cons b t ih =>
    have hb : b ≠ 0#8 := fun e => hz (by simp [e])
    rw [List.takeWhile_cons_of_pos (by simpa using hb), ih (fun h => hz (by simp [h]))]

/-- C84: `fputs` of a text without NUL writes it all. -/
theorem C84_fputs {s : Stream} (h : Writable s) (t : List Byte) (ht : t ≠ []) (hz : 0#8 ∉ t) :
    mPuts s t = ({ s with data := File.overwrite s.data (at_ s) t, pos := at_ s + t.length }, .num 1) := by
  have e : t.takeWhile (fun x => decide (x ≠ 0#8)) = t := by
    exact noNul t hz
  simp only [mPuts, e, if_neg ht, put_ok h]
  simp

/-- C84 fails: when nothing can be written, `fputs` and `fputc` answer the number -1, not an error object (`write` does). -/
theorem C84_refuted_fputs {s : Stream} (h : ¬ Writable s) (t : List Byte) (ht : t ≠ []) (hz : 0#8 ∉ t) (c : Int) :
    mPuts s t = (s, .num (-1)) ∧ mPutc s c = (s, .num (-1)) ∧ mWrite s (.bytes t) none 1 = some (s, .err) := by
  have e : t.takeWhile (fun x => decide (x ≠ 0#8)) = t := by
    exact noNul t hz
  have hp : ∀ l, put s l = (s, false) := by
    intro l
    unfold put
    by_cases a : s.canWrite = true <;> by_cases b : s.full = true <;> simp_all [Writable]
  have hpos : t.length ≠ 0 := fun e => ht (List.eq_nil_of_length_eq_zero e)
  refine ⟨?_, ?_, ?_⟩
  · simp only [mPuts, e, if_neg ht, hp]; simp
  · simp only [mPutc, hp]
  · simp [mWrite, Buf.length, hpos, Buf.chars, hp]

/-- C84 fails: a read that meets the end of the file is an error, though the bytes are in the buffer and gone from the
file: for every file with fewer bytes left than asked for. -/
theorem C84_refuted_short (s : Stream) (hr : s.canRead = true) (buf : List Byte) (n : Nat)
    (hn : (s.data.drop s.pos).length < n) (hb : (s.data.drop s.pos).length ≤ buf.length) :
    ∃ s', mRead s buf 1 n = (s', s.data.drop s.pos ++ buf.drop (s.data.drop s.pos).length, .err) ∧
      s'.pos = s.pos + (s.data.drop s.pos).length := by
  have e : (s.data.drop s.pos).take n = s.data.drop s.pos := List.take_of_length_le (by omega)
  have h0 : n ≠ 0 := by omega
  refine ⟨{ s with pos := s.pos + (s.data.drop s.pos).length, eof := s.eof || decide ((s.data.drop s.pos).length < n) }, ?_, rfl⟩
  simp only [mRead, fread, hr, Nat.one_mul, e, true_and, if_pos h0, Nat.div_one, if_pos hn, ne_eq, not_false_iff,
    if_neg (show ¬ buf.length < (s.data.drop s.pos).length by omega)]

/-- C84 fails: the size of the buffer is not looked at: reading more than it holds writes outside of it. -/
theorem C84_refuted_outside (s : Stream) (hr : s.canRead = true) (buf : List Byte) (n : Nat)
    (hn : buf.length < n) (hb : buf.length < (s.data.drop s.pos).length) : (mRead s buf 1 n).2.2 = .outside := by
  have h0 : n ≠ 0 := by omega
  have : buf.length < ((s.data.drop s.pos).take n).length := by rw [List.length_take]; omega
  simp only [mRead, fread, hr, Nat.one_mul, true_and, if_pos h0, ne_eq, if_pos this]

theorem fgetsLoop_nul (a r : List Byte) (n : Nat) (hn : a.length < n) (hnl : 0x0a#8 ∉ a) :
    ∃ x, (File.fgetsLoop n (a ++ 0#8 :: r)).1 = a ++ 0#8 :: x := by
  induction a generalizing n with
  | nil =>
    obtain ⟨n, rfl⟩ : ∃ m, n = m + 1 := ⟨n - 1, by simp at hn; omega⟩
    exact ⟨_, by simp only [List.nil_append, File.fgetsLoop, if_neg (show ¬ (0#8 = 0x0a#8) by decide)]; rfl⟩
  | cons b a ih =>
    obtain ⟨n, rfl⟩ : ∃ m, n = m + 1 := ⟨n - 1, by simp at hn; omega⟩
    have hb : b ≠ 0x0a#8 := fun e => hnl (by simp [e])
    obtain ⟨x, hx⟩ := ih n (by simp at hn; omega) (fun h => hnl (by simp [h]))
    exact ⟨x, by simp only [List.cons_append, File.fgetsLoop, if_neg hb, hx]⟩

theorem takeWhile_nul (a x : List Byte) (hz : 0#8 ∉ a) : (a ++ 0#8 :: x).takeWhile (fun b => decide (b ≠ 0#8)) = a := by
  induction a with
  | nil => simp
  | cons b a ih =>
    have hb : b ≠ 0#8 := fun e => hz (by simp [e])
    rw [List.cons_append, List.takeWhile_cons_of_pos (by simpa using hb), ih (fun h => hz (by simp [h]))]

/-- C84 fails, for every line with a NUL byte among its first 1023 bytes: `fgets` answers what stands before the NUL, and has
taken more than that from the file. -/
theorem C84_refuted_line (s : Stream) (hr : s.canRead = true) (a r : List Byte) (hd : s.data.drop s.pos = a ++ 0#8 :: r)
    (hz : 0#8 ∉ a) (hnl : 0x0a#8 ∉ a) (hl : a.length < 1023) :
    (mGets s).2 = .bytes a ∧ s.pos + a.length < (mGets s).1.pos := by
  obtain ⟨x, hx⟩ := fgetsLoop_nul a r 1023 hl hnl
  have hne : (a ++ 0#8 :: x) ≠ [] := by simp
  simp only [mGets, fgets, hr, if_true, hd, hx, if_neg hne, takeWhile_nul a x hz, true_and]
  simp

/-- C84 fails: what follows a NUL byte in a line is lost. -/
theorem C84_refuted_nul : allLines 9 ⟨[0x61, 0, 0x62, 0x0a, 0x63], 0, false, true, false, false, false⟩ =
    [[0x61], [0x63]] := by decide

/-! ## Opening and positions -/

/-- C84: what a freshly opened file holds and where it stands, for the six modes. -/
theorem C84_open (d : List Byte) :
    open_ (some d) [0x72] = some ⟨d, 0, false, true, false, false, false⟩ ∧ open_ none [0x72] = none ∧
    open_ (some d) [0x72, 0x2b] = some ⟨d, 0, false, true, true, false, false⟩ ∧ open_ none [0x72, 0x2b] = none ∧
    (∀ f, open_ f [0x77] = some ⟨[], 0, false, false, true, false, false⟩) ∧
    (∀ f, open_ f [0x77, 0x2b] = some ⟨[], 0, false, true, true, false, false⟩) ∧
    (∀ f, open_ f [0x61] = some ⟨f.getD [], 0, false, false, true, true, false⟩) ∧
    (∀ f, open_ f [0x61, 0x2b] = some ⟨f.getD [], 0, false, true, true, true, false⟩) := by
  refine ⟨rfl, rfl, rfl, rfl, ?_, ?_, ?_, ?_⟩ <;> intro f <;> cases f <;> rfl

/-- C84: `ftell` after `fseek` is the place asked for, counted from the start, the position or the end; a place before the
start is an error and moves nothing. -/
theorem C84_seek (s : Stream) (o : Int) (w : Nat) (b : Int)
    (hb : (w = 0 ∧ b = 0) ∨ (w = 1 ∧ b = s.pos) ∨ (w = 2 ∧ b = s.data.length)) :
    (0 ≤ b + o → (mSeek s o w).2 = .bool true ∧ mTell (mSeek s o w).1 = .num (b + o) ∧ (mSeek s o w).1.data = s.data ∧
      mEof (mSeek s o w).1 = .bool false) ∧ (b + o < 0 → mSeek s o w = (s, .err)) := by
  have e : mSeek s o w = if b + o < 0 then (s, .err) else ({ s with pos := (b + o).toNat, eof := false }, .bool true) := by
    rcases hb with ⟨rfl, rfl⟩ | ⟨rfl, rfl⟩ | ⟨rfl, rfl⟩ <;> rfl
  rw [e]
  refine ⟨fun h => ?_, fun h => if_pos h⟩
  rw [if_neg (not_lt.2 h)]
  simp only [mTell, mEof, true_and, and_true, Res.num.injEq]
  omega

/-! An example: a file opened for update. -/
def ex : Stream := ⟨[0x61, 0x62, 0x0a, 0x63], 1, false, true, true, false, false⟩
example : Writable ex ∧ at_ ex = 1 := ⟨⟨rfl, rfl⟩, rfl⟩
example : allLines 5 ex = [[0x62, 0x0a], [0x63]] := by decide
example : (getcs 4 ex).1 = [.num 0x62, .num 0x0a, .num 0x63, .num (-1)] := by decide
example : (mRead ex [0, 0, 0, 0] 1 4).2 = ([0x62, 0x0a, 0x63, 0], .err) := by decide
example : (mWrite ex (.bytes [1, 2, 3, 4]) (some 1) 2).map (fun r => (r.1.data, r.2)) =
    some ([0x61, 1, 2, 0x63], .num 2) := by decide +kernel
example : (mRead ex [0, 0, 0, 0] 1 2).2 = ([0x62, 0x0a, 0, 0], .num 2) := by decide
example : (mGets ⟨[0x61, 0, 0x62, 0x0a, 0x63], 0, false, true, false, false, false⟩).1.pos = 4 := by decide
example : (mWrite ex (.str [0xc3, 0xa9]) none 1).map (·.1.data) = some [0x61, 0xc3, 0x0a, 0x63] := by decide +kernel

end Potion.Buffile
