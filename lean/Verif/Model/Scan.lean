import Verif.Model.Bytes
/-!
Model of the scan of the machine stack at the start of a collection, on memory as bytes (/repo/core/gc.c 56-111 with gc.h
IS_GC_PROTECTED, IN_BIRTH_REGION, IN_OLDER_REGION, GC_FORWARD, gc.c:394-411 `potion_gc_copy` and potion.h 309-317, 571-574),
for x86-64 (the stack grows down) after start-up (`P->vts` is set). Addresses and words are natural numbers below 2^64.
Not modelled: counting (type 0), the result (a count). The size of an object is given by a function of its address:
`potion_type_size` reads the object and its class, neither of which changes in the bytes it reads while the stack is scanned.
-/
namespace Potion.Scan
open Potion

abbrev Mem := Nat → Byte

/-- Little-endian value of the `n` bytes at `a`. -/
def rd (m : Mem) (a : Nat) : Nat → Nat
  | 0 => 0
  | n+1 => (m a).toNat + 256 * rd m (a + 1) n
/-- Storing the `n` low bytes of `v` at `a`. -/
def wr (m : Mem) (a n v : Nat) : Mem := fun x => if a ≤ x ∧ x < a + n then BitVec.ofNat 8 (v / 256 ^ (x - a)) else m x
/-- `memcpy(dst, src, n)`. -/
def memcpy (m : Mem) (dst src n : Nat) : Mem := fun x => if dst ≤ x ∧ x < dst + n then m (src + (x - dst)) else m x

/-- potion.h:155-156 and 58. -/
def FWD : Nat := 0xFFFFFFFE
def COPIED : Nat := 0xFFFFFFFF
def TNIL : Nat := 0x250000

/-- potion.h:672-688 `struct PNMemory` (at `lo`) and the number of types. -/
structure Regions where
  lo : Nat
  protect : Nat
  birthLo : Nat
  birthHi : Nat
  oldLo : Nat
  oldHi : Nat
  types : Nat

/-- gc.h IS_GC_PROTECTED, IN_BIRTH_REGION, IN_OLDER_REGION. -/
def Regions.prot (r : Regions) (v : Nat) : Bool := r.lo ≤ v ∧ v < r.protect
def Regions.birth (r : Regions) (v : Nat) : Bool := r.birthLo < v ∧ v < r.birthHi
def Regions.older (r : Regions) (v : Nat) : Bool := r.oldLo < v ∧ v < r.oldHi

/-- gc.c:71 and 78: the region that is being collected. -/
def Regions.from (r : Regions) (major : Bool) (v : Nat) : Bool :=
  !r.prot v && (r.birth v || (major && r.older v))

/-- gc.c:56 HAS_REAL_TYPE of what is at an address. -/
def Regions.real (r : Regions) (m : Mem) (v : Nat) : Bool :=
  rd m v 4 = COPIED ∨ (TNIL ≤ rd m v 4 ∧ rd m v 4 - TNIL < r.types)

/-- potion.h PN_IS_PTR. -/
def isPtr (v : Nat) : Bool := v % 2 = 0 ∧ 8 ≤ v

/-- potion.h:571-574 `potion_fwd`. `none`: a chain longer than `fuel`. -/
def fwd (m : Mem) : (fuel : Nat) → Nat → Option Nat
  | 0, _ => none
  | f+1, v => if isPtr v && decide (rd m v 4 = FWD) then fwd m f (rd m (v + 8) 8) else some v

structure St where
  mem : Mem
  /-- `M->old_cur` -/
  cur : Nat

/-- gc.c:394-411 `potion_gc_copy`. -/
def copy (size : Nat → Nat) (s : St) (v : Nat) : St × Nat :=
  let dst := s.cur
  let sz := size v
  if sz = 0 then ({ s with mem := memcpy s.mem dst v 8 }, dst)
  else
    let m := memcpy s.mem dst v sz
    let m := wr m v 4 COPIED
    let m := wr m (v + 4) 4 sz
    let m := wr m (v + 8) 8 dst
    ({ mem := m, cur := dst + sz }, dst)

/-- gc.h:56-62 GC_FORWARD. -/
def forward (size : Nat → Nat) (s : St) (x v : Nat) : St :=
  if rd s.mem v 4 = COPIED then { s with mem := wr s.mem x 8 (rd s.mem (v + 8) 8) }
  else
    let (s, dst) := copy size s v
    { s with mem := wr s.mem x 8 dst }

/-- gc.c:64-91, the body of the loop of `pngc_mark_array`, for a minor or a major collection. -/
def markWord (r : Regions) (size : Nat → Nat) (major : Bool) (fuel : Nat) (s : St) (x : Nat) : Option St :=
  let v := rd s.mem x 8
  if r.prot v || r.birth v || r.older v then
    match fwd s.mem fuel v with
    | none => none
    | some v => if r.from major v && r.real s.mem v then some (forward size s x v) else some s
  else some s

/-- gc.c:58-94 `pngc_mark_array`. -/
def markArray (r : Regions) (size : Nat → Nat) (major : Bool) (fuel : Nat) (s : St) (x : Nat) : Nat → Option St
  | 0 => some s
  | n+1 => match markWord r size major fuel s x with
    | none => none
    | some s => markArray r size major fuel s (x + 8) n

/-- gc.c:96-111 `potion_mark_stack`. -/
def markStack (r : Regions) (size : Nat → Nat) (major : Bool) (fuel : Nat) (cstack esp : Nat) (s : St) : Option St :=
  let n : Int := ((cstack : Int) - esp) / 8 + 1
  if n ≤ 0 then some s else markArray r size major fuel s esp n.toNat

end Potion.Scan
