/-!
Byte layout of a Potion hash table (/repo/core/khash.h lines 23-50) and its packed status bits.
`p` is `kh_pair`: 16 for key/value tables, 8 for the string set (khash.h:45, table.h:22-24).
Simplification: offsets are natural numbers (the C type is uint32_t; `C09_offsets_fit` states when nothing wraps).
-/
namespace Potion.Layout

/-- khash.h:46 `kh_size(n)`: bytes needed for the bucket area of `n` buckets. -/
def size (p n : Nat) : Nat := (n / 16 + 1) * 4 + n * p
/-- khash.h:47 `kh_flag(i)`: offset of the 32-bit status word serving bucket `i`. -/
def flag (p i : Nat) : Nat := (i / 16) * (4 + 4 * 4 * p)
/-- khash.h:48 `kh_key_at(i)`. -/
def key (p i : Nat) : Nat := (i / 16 + 1) * 4 + i * p
/-- khash.h:49 `kh_val_at(i)`, `sizeof(khkey_t) = 8`. -/
def val (p i : Nat) : Nat := (i / 16 + 1) * 4 + i * p + 8
/-- khash.h:38 `__ac_fsize(m)`: number of words of the temporary flag array of `kh_resize`. -/
def fsize (m : Nat) : Nat := if m < 16 then 1 else m / 16

/-- Bit position `(i & 0xf) << 1` inside a status word. -/
def sh (i : Nat) : Nat := (i % 16) * 2

/-- The status words, one per 16 buckets. -/
abbrev Flags := Nat → BitVec 32

/-- khash.h:29 `__kh_isempty`. -/
def isEmpty (f : Flags) (i : Nat) : Bool := ((f (i / 16) >>> sh i) &&& 2#32) != 0#32
/-- khash.h:30 `__kh_isdel`. -/
def isDel (f : Flags) (i : Nat) : Bool := ((f (i / 16) >>> sh i) &&& 1#32) != 0#32
/-- khash.h:31 `__kh_iseither`. -/
def isEither (f : Flags) (i : Nat) : Bool := ((f (i / 16) >>> sh i) &&& 3#32) != 0#32
/-- khash.h:34 `__kh_set_isboth_false`. -/
def setBothFalse (f : Flags) (i : Nat) : Flags :=
  fun w => if w = i / 16 then f w &&& ~~~(3#32 <<< sh i) else f w
/-- khash.h:27 `__ac_set_isempty_false`. -/
def setEmptyFalse (f : Flags) (i : Nat) : Flags :=
  fun w => if w = i / 16 then f w &&& ~~~(2#32 <<< sh i) else f w
/-- khash.h:35 `__kh_set_isdel_true`. -/
def setDelTrue (f : Flags) (i : Nat) : Flags :=
  fun w => if w = i / 16 then f w ||| (1#32 <<< sh i) else f w
/-- khash.h:95 `memset(new_flags, 0xaa, ..)`. -/
def allEmpty : Flags := fun _ => 0xaaaaaaaa#32

end Potion.Layout
