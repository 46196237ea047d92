/-!
Model of the birth region as bytes: bump allocation and the store list growing towards it
(/repo/core/potion.h 232, 700-738; /repo/core/gc.h 7-41, 147-157; /repo/core/gc.c 113-136, 144-153, 177-186, 204-220,
245, 266-303).
Addresses and sizes are natural numbers: sizes are below 2^31, as for the C `int` (a larger request is outside the model).
PN_SIZE_T is 8, POTION_PAGESIZE 4096. What the collection finds in the heap is modelled in Model/Gc.lean; here it is an
environment: the pages it gets, the size of the old region, whether it is a full one, the continuations it keeps.
-/
namespace Potion.Alloc

/-- potion.h:232 PN_ALIGN, for positive `o`. -/
def align (o x : Nat) : Nat := ((o - 1) / x + 1) * x

/-- gc.h:8-18 and config.h. -/
def birthSize : Nat := 8 * 2^21
def minBirth : Nat := 8 * 2^15
def maxBirth : Nat := 16 * birthSize
def pageSize : Nat := 4096

/-- potion.h:672-688 `struct PNMemory`: `birth_lo`, `birth_hi`, `birth_cur`, `birth_storeptr` (the next free slot of the
store list), `dirty`. -/
structure Birth where
  lo : Nat
  hi : Nat
  cur : Nat
  sp : Nat
  dirty : Bool
  deriving DecidableEq, Repr

structure Env where
  page : Nat
  old : Nat
  full : Bool
  keeps : Nat

/-- gc.h:147-157 `potion_birth_suggest`. -/
def suggest (need old : Nat) : Nat :=
  let s := old / 2
  let s := if need * 2 > s then need * 2 else s
  let s := if minBirth > s then minBirth else if birthSize < s then birthSize else s
  align s minBirth

/-- gc.c:123-136 NEW_BIRTH_REGION with gc.h:28-35 SET_GEN, SET_STOREPTR and gc.c:113-117 `pngc_page_new`. -/
def newBirth (sz : Nat) (e : Env) : Birth :=
  let sz := align sz pageSize
  { lo := e.page, hi := e.page + sz, cur := e.page + 16, sp := e.page + sz - 8 * (5 + e.keeps), dirty := false }

/-- gc.c:266-303 `potion_garbagecollect` with 144-153, 177-181 `potion_gc_minor` and 204-220, 245 `potion_gc_major`. Their
result is not looked at: if the request is too large, nothing has happened. -/
def collect (b : Birth) (req : Nat) (e : Env) : Birth :=
  if req ≥ maxBirth then { b with dirty := false }
  else if e.full then newBirth (req + suggest req e.old) e
  else newBirth (max (req + 2 * pageSize) (suggest (req + 2 * pageSize) e.old)) e

/-- potion.h:703-705: the size of the block. -/
def blockSize (siz : Nat) : Nat := align (if siz < 16 then 16 else siz) 8

/-- potion.h:700-721 `potion_gc_alloc`: the new state and the address. -/
def alloc (b : Birth) (siz : Nat) (e : Env) : Birth × Nat :=
  let siz := blockSize siz
  let b := if b.dirty ∨ b.cur + siz ≥ b.sp - 2 then collect b (siz + 32) e else b
  ({ b with cur := b.cur + siz }, b.cur)

/-- potion.h:735-737, the part of `potion_gc_update` that pushes onto the store list. -/
def touch (b : Birth) (e : Env) : Birth :=
  let b := { b with sp := b.sp - 8 }
  if b.sp - 32 ≤ b.cur then collect b pageSize e else b

end Potion.Alloc
