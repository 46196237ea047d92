import Verif.Model.Alloc
/-!
Histories of the birth region. `Hist b blocks slots`: the region is now `b`; the program has been given `blocks` (address
and size) since the last collection, and `slots` are the addresses of the words written to the store list since then.
-/
namespace Potion.Alloc

/-- What the system may answer: pages are aligned; at most 1000 continuations are kept. -/
structure Env.Ok (e : Env) : Prop where
  aligned : e.page % pageSize = 0
  keeps : e.keeps ≤ 1000

inductive Hist : Birth → List (Nat × Nat) → List Nat → Prop
  /-- gc.c:664-690 `potion_gc_boot`: `cur` is behind the protected objects. -/
  | boot {lo hi cur} : lo % 8 = 0 → hi % 8 = 0 → cur % 8 = 0 → lo + 16 ≤ cur → cur + 80 ≤ hi →
      Hist ⟨lo, hi, cur, hi - 32, false⟩ [] []
  | alloc {b blocks slots} (siz e) : Hist b blocks slots → e.Ok → blockSize siz + 32 < maxBirth →
      Hist (alloc b siz e).1
        ((if b.dirty ∨ b.cur + blockSize siz ≥ b.sp - 2 then [] else blocks) ++ [((alloc b siz e).2, blockSize siz)])
        (if b.dirty ∨ b.cur + blockSize siz ≥ b.sp - 2 then [] else slots)
  | touch {b blocks slots} (e) : Hist b blocks slots → e.Ok →
      Hist (touch b e) (if b.sp - 8 - 32 ≤ b.cur then [] else blocks) (if b.sp - 8 - 32 ≤ b.cur then [] else slots ++ [b.sp])
  | dirty {b blocks slots} : Hist b blocks slots → Hist { b with dirty := true } blocks slots
  | collect {b blocks slots} (req e) : Hist b blocks slots → e.Ok → req < maxBirth → Hist (collect b req e) [] []

/-- Two stretches of memory. -/
def Disjoint (a b : Nat × Nat) : Prop := a.1 + a.2 ≤ b.1 ∨ b.1 + b.2 ≤ a.1

end Potion.Alloc
