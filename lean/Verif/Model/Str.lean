import Verif.Model.Word
/-!
Model of Potion's UTF-8 string routines (/repo/core/string.c, /repo/core/contrib.c 1-53, /repo/core/syntax.y 281-327).
A byte is a `BitVec 8`. C strings are followed in memory by a NUL byte and then by unknown bytes.
-/
namespace Potion

/-- C `unsigned char`. -/
abbrev Byte := BitVec 8

namespace Str

/-- `(s[i] & 0xC0) == 0x80` (string.c:152, 162): a UTF-8 continuation byte. -/
def isCont (b : Byte) : Bool := (b &&& 0xC0#8) == 0x80#8

/-- Memory around a C string: its bytes, the terminating NUL, then unknown bytes. -/
def cmem (s : List Byte) (junk : Nat → Byte) (i : Nat) : Byte :=
  if h : i < s.length then s[i] else if i = s.length then 0#8 else junk i

/-! ### contrib.c `potion_cp_strlen_utf8` -/

/-- contrib.c:9 `ONEMASK`. -/
def ONEMASK : BitVec 64 := 0x0101010101010101#64
/-- contrib.c:34, 37 `ONEMASK * 0x80`. -/
def HIMASK : BitVec 64 := ONEMASK * 0x80#64

/-- contrib.c:28, 47 `(b >> 7) & ((~b) >> 6)`; `b` is promoted to `int`. -/
def contBit (b : Byte) : Nat :=
  let w : BitVec 32 := b.setWidth 32
  ((w >>> 7) &&& ((~~~w).sshiftRight 6)).toNat

/-- contrib.c:33 `u = *(size_t *)(s)`: a little-endian load of eight bytes. -/
def load64 (m : Nat → Byte) (p : Nat) : BitVec 64 :=
  BitVec.ofNat 64 ((m p).toNat + 256 * ((m (p+1)).toNat + 256 * ((m (p+2)).toNat + 256 * ((m (p+3)).toNat +
    256 * ((m (p+4)).toNat + 256 * ((m (p+5)).toNat + 256 * ((m (p+6)).toNat + 256 * (m (p+7)).toNat)))))))

/-- contrib.c:34: does the word contain a NUL byte? -/
def hasZero (u : BitVec 64) : Bool := ((u - ONEMASK) &&& (~~~u) &&& HIMASK) != 0#64

/-- contrib.c:37-38: the number of continuation bytes in a word. -/
def contCount (u : BitVec 64) : Nat :=
  let u := ((u &&& HIMASK) >>> 7) &&& ((~~~u) >>> 6)
  ((u * ONEMASK) >>> 56).toNat

/-- contrib.c:43-48: the left-over bytes; `none` when the fuel runs out before a NUL byte. -/
def tailLoop (m : Nat → Byte) (p0 : Nat) : (fuel : Nat) → (s count : Nat) → Option Nat
  | 0, _, _ => none
  | f+1, s, count =>
    if m s = 0#8 then some ((s - p0) - count) else tailLoop m p0 f (s+1) (count + contBit (m s))

/-- contrib.c:31-40: whole words. -/
def wordLoop (m : Nat → Byte) (p0 : Nat) : (fuel : Nat) → (s count : Nat) → Option Nat
  | 0, _, _ => none
  | f+1, s, count =>
    let u := load64 m s
    if hasZero u then tailLoop m p0 9 s count else wordLoop m p0 f (s+8) (count + contCount u)

/-- contrib.c:25-29: initial misaligned bytes, then 31-50. -/
def headLoop (m : Nat → Byte) (p0 fuel : Nat) : (n : Nat) → (s count : Nat) → Option Nat
  | 0, s, count => wordLoop m p0 fuel s count
  | n+1, s, count =>
    if s % 8 ≠ 0 then
      if m s = 0#8 then some ((s - p0) - count) else headLoop m p0 fuel n (s+1) (count + contBit (m s))
    else wordLoop m p0 fuel s count

/-- contrib.c:16-52 `potion_cp_strlen_utf8` of the C string at address `p0`. At most 7 bytes are misaligned. -/
def strlenUtf8 (m : Nat → Byte) (p0 fuel : Nat) : Option Nat := headLoop m p0 fuel 8 p0 0

/-! ### Character positions -/

/-- string.c:149-156 `potion_utf8char_offset`. The list holds the bytes of the string (the loop stops at a NUL).
Simplification: `int i` does not overflow (strings below 2^31 bytes). -/
def charOffset : List Byte → (index i : Nat) → Nat
  | [], _, i => i
  | b :: s, index, i =>
    if b = 0#8 then i
    else if !isCont b then
      if index = 0 then i else charOffset s (index - 1) (i + 1)
    else charOffset s index (i + 1)

/-- string.c:159-165 `potion_utf8char_nextchar`; `m` is the memory seen from the start of the string. `none`: still
scanning when the fuel runs out. -/
def nextCharLoop (m : Nat → Byte) : (fuel : Nat) → (i : Nat) → Option Nat
  | 0, _ => none
  | f+1, i => if m i = 0#8 then some i else if !isCont (m i) then some i else nextCharLoop m f (i+1)
def nextChar (m : Nat → Byte) (fuel offset : Nat) : Option Nat := nextCharLoop m fuel (offset + 1)

/-- Number of characters as computed by `potion_cp_strlen_utf8` (see `strlenUtf8`; used on the string's own bytes). -/
def charCount (s : List Byte) : Nat := (s.takeWhile (· ≠ 0#8)).countP (fun b => !isCont b)

/-- string.c:221-238 `potion_str_slice_index` on an integer (`none` = nil). `int` truncation is not modelled
(indices below 2^31). -/
def sliceIndex (i : Option Int) (len nilvalue : Nat) : Nat :=
  match i with
  | none => nilvalue
  | some i =>
    if i < 0 then (if i + len < 0 then 0 else (i + len).toNat)
    else if i > len then len else i.toNat

/-- Copy `to - from` bytes out of memory: `potion_str2(P, str + from, to - from)`; a negative length is undefined
(size_t wraps; the `assert` in `potion_str2` fails or the copy runs away). -/
def copyRange (m : Nat → Byte) (start stop : Nat) : Option (List Byte) :=
  if stop < start then none else some ((List.range (stop - start)).map fun k => m (start + k))

/-- Outcome of `slice`/`at`: undefined behaviour is `none`. -/
def strSlice (s : List Byte) (junk : Nat → Byte) (start : Option Int) (stop : Option Int) : Option (List Byte) :=
  match start with
  | none => some s                                    -- string.c:250-251 `if (!start) return self`
  | some st =>
    let len := charCount s
    let so := charOffset s (sliceIndex (some st) len 0) 0
    let en : Int := match stop with | none => len | some e => e
    -- string.c:260 `end < start` compares the tagged words as unsigned numbers
    let eo :=
      if (pnNum en).toNat < (pnNum st).toNat then
        -- string.c:261-262 `start+end` adds the tagged words: (2s+1)+(2e+1) = 2(s+e+1), nil when that is 0
        let sum := st + en + 1
        charOffset s (sliceIndex (if sum = 0 then none else some sum) len len) 0
      else charOffset s (sliceIndex (some en) len len) 0
    copyRange (cmem s junk) so eo

/-- string.c:293-308 `potion_str_at`. -/
def strAt (s : List Byte) (junk : Nat → Byte) (fuel : Nat) (index : Int) : Option (List Byte) :=
  let start : Nat := if index < 0 then sliceIndex (some index) (charCount s) 0 else index.toNat
  let so := charOffset s start 0
  match nextChar (cmem s junk) fuel so with
  | none => none
  | some eo => copyRange (cmem s junk) so eo

/-! ### Comparison -/

/-- C `strcmp` of the strings at `p` and `q`: the difference of the first bytes, as `unsigned char`s, that differ or are
NUL (the C standard fixes only its sign). `none`: still comparing when the fuel runs out. -/
def strcmpLoop (m : Nat → Byte) : (fuel : Nat) → (p q : Nat) → Option Int
  | 0, _, _ => none
  | f+1, p, q =>
    if m p ≠ m q ∨ m p = 0#8 then some ((m p).toNat - (m q).toNat : Int) else strcmpLoop m f (p+1) (q+1)

/-- string.c:479-485 `potion_str_cmp` of two strings whose characters are at `p` and `q`. (Other arguments are first
sent `string`.) -/
def strCmp (m : Nat → Byte) (fuel p q : Nat) : Option Int := strcmpLoop m fuel p q

/-! ### Code points -/

/-- string.c:182-189: the first 128 entries of `utf8d` (indexed by byte - 0x80). -/
def utf8d : List Nat :=
  [56,56,56,56,56,56,56,56,56,56,56,56,56,56,56,56,
   40,40,40,40,40,40,40,40,40,40,40,40,40,40,40,40,
   24,24,24,24,24,24,24,24,24,24,24,24,24,24,24,24,
   24,24,24,24,24,24,24,24,24,24,24,24,24,24,24,24,
   204,204,188,188,188,188,188,188,188,188,188,188,188,188,188,188,
   188,188,188,188,188,188,188,188,188,188,188,188,188,188,188,188,
   174,158,158,158,158,158,158,158,158,158,158,158,158,142,126,126,
   111,95,95,95,79,207,207,207,207,207,207,207,207,207,207,207]

/-- string.c:204-207: strip the marker bits of a byte. -/
def strip (b : Byte) : Byte :=
  if b.toNat ≥ 0x80 then b ^^^ (BitVec.ofNat 8 (utf8d.getD (b.toNat - 0x80) 0) <<< 4) else b

/-- string.c:200-211 `potion_utf8char_decode`: consumes *all* bytes up to the NUL. -/
def decode (s : List Byte) : BitVec 64 :=
  (s.takeWhile (· ≠ 0#8)).foldl (fun u b => (u <<< 6) ||| (strip b).setWidth 64) 0#64

/-- string.c:314-330 `potion_str_ord` (index 0 when absent). `char` is signed, so `str[i]` sign-extends; that branch
is only taken for pure ASCII. Returns the integer. A negative index makes `str[PN_INT(index)]` read before the string:
`none`. -/
def strOrd (s : List Byte) (index : Int) : Option Int :=
  if s.length > 255 ∨ ¬ ((charCount s : Int) = s.length ∧ index < s.length) then
    if index < 0 then some (decode (s.drop (charOffset s (index % 2^64).toNat 0))).toInt
    else some (decode (s.drop (charOffset s index.toNat 0))).toInt
  else if index < 0 then none
  else some ((s.getD index.toNat 0#8).toInt)

/-- Result of a `\u` escape in the grammar: an error or bytes. Bytes are `char`s: low 8 bits of the expression. -/
def byteOf (n : Nat) : Byte := BitVec.ofNat 8 n

/-- syntax.y:281-300 `\uXXXX`. `none` = YY_ERROR. -/
def escu (code : Nat) : Option (List Byte) :=
  if code < 0x80 then some [byteOf code]
  else if code < 0x7ff then
    if code = 0xC0 ∨ code = 0xC1 then none
    else some [byteOf ((code >>> 6) ||| 0xc0), byteOf ((code &&& 0x3f) ||| 0x80)]
  else
    if code ≥ 0xD800 ∧ code < 0xDFFF then none
    else some [byteOf ((code >>> 12) ||| 0xe0), byteOf (((code >>> 6) &&& 0x3f) ||| 0x80), byteOf ((code &&& 0x3f) ||| 0x80)]

/-- syntax.y:301-327 `\U{X...}`. -/
def escU (code : Nat) : Option (List Byte) :=
  if code < 0x80 then some [byteOf code]
  else if code < 0x7ff then
    if code = 0xC0 ∨ code = 0xC1 then none
    else some [byteOf ((code >>> 6) ||| 0xc0), byteOf ((code &&& 0x3f) ||| 0x80)]
  else if code < 0xffff then
    if code ≥ 0xD800 ∧ code < 0xDFFF then none
    else some [byteOf ((code >>> 12) ||| 0xe0), byteOf (((code >>> 6) &&& 0x3f) ||| 0x80), byteOf ((code &&& 0x3f) ||| 0x80)]
  else if code < 0x10ffff then
    some [byteOf ((code >>> 18) ||| 0xf0), byteOf (((code >>> 12) &&& 0x3f) ||| 0x80),
      byteOf (((code >>> 6) &&& 0x3f) ||| 0x80), byteOf ((code &&& 0x3f) ||| 0x80)]
  else none

end Str
end Potion
