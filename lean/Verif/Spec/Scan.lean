import Verif.Model.Scan
import Verif.Spec.Gc
/-!
How memory shows the cells of Model/Gc.lean, and which values the words of the machine stack denote.
-/
namespace Potion.Scan
open Potion

/-- Where a cell lies. -/
structure Place where
  addr : Nat
  size : Nat
  deriving DecidableEq

def bytes (m : Mem) (a n : Nat) : List Byte := (List.range n).map fun i => m (a + i)
/-- The `n` words from `a` up. -/
def words (m : Mem) (a n : Nat) : List Nat := (List.range n).map fun i => rd m (a + 8 * i) 8

/-- The regions, and the space a collection empties. -/
@[reducible] def Protected (r : Regions) (v : Nat) : Prop := r.lo ≤ v ∧ v < r.protect
@[reducible] def Young (r : Regions) (v : Nat) : Prop := r.birthLo < v ∧ v < r.birthHi
@[reducible] def Old (r : Regions) (v : Nat) : Prop := r.oldLo < v ∧ v < r.oldHi
def Own (r : Regions) (v : Nat) : Prop := Protected r v ∨ Young r v ∨ Old r v
def Collected (r : Regions) (major : Bool) (v : Nat) : Prop := ¬Protected r v ∧ (Young r v ∨ (major = true ∧ Old r v))

/-- The cell is there. -/
def There (c : Gc.Mem) (a : Nat) : Prop := ∃ x, c[a]? = some x ∧ x ≠ .free

def Disjoint (a n b k : Nat) : Prop := a + n ≤ b ∨ b + k ≤ a

/-- A collection of the cells below `N` is under way: `c` are the cells, `pl` where they lie, `m` is the memory. `W o bs`: the
bytes `bs` are those of the object `o`. `isFrom`: the cells in the space being collected, none of them a new one. -/
structure Shows (r : Regions) (size : Nat → Nat) (major : Bool) (isFrom : Nat → Bool) (W : Gc.Obj → List Byte → Prop) (N : Nat)
    (pl : List Place) (m : Mem) (c : Gc.Mem) : Prop where
  length : pl.length = c.length
  old : N ≤ c.length
  new : ∀ a, N ≤ a → isFrom a = false
  place : ∀ (a : Nat) p, There c a → pl[a]? = some p → p.addr % 8 = 0 ∧ 8 ≤ p.addr ∧ 16 ≤ p.size ∧
    p.size % 8 = 0 ∧ p.addr < 2 ^ 48
  apart : ∀ (a b : Nat) p q, There c a → There c b → a ≠ b → pl[a]? = some p → pl[b]? = some q →
    Disjoint p.addr p.size q.addr q.size
  region : ∀ (a : Nat) p, There c a → a < N → pl[a]? = some p → Own r p.addr ∧
    (isFrom a = true ↔ Collected r major p.addr) ∧ p.size = size p.addr
  obj : ∀ (a : Nat) o p, c[a]? = some (.obj o) → pl[a]? = some p → TNIL ≤ rd m p.addr 4 ∧ rd m p.addr 4 < TNIL + r.types ∧
    W o (bytes m p.addr p.size)
  fwd : ∀ (a : Nat) b p, c[a]? = some (.fwd b) → pl[a]? = some p → rd m p.addr 4 = FWD ∧
    ∃ q, pl[b]? = some q ∧ rd m (p.addr + 8) 8 = q.addr
  near : ∀ (a : Nat) b, c[a]? = some (.fwd b) → a < N → b < N ∧ There c b
  copied : ∀ (a : Nat) b p, c[a]? = some (.copied b) → pl[a]? = some p → rd m p.addr 4 = COPIED ∧
    ∃ q, pl[b]? = some q ∧ rd m (p.addr + 8) 8 = q.addr

/-- What a word on the stack denotes: the object that lies at that address; or itself, if it is not an address in the
collector's memory, or is one at which no object lies and which does not look like one (nor would, if the header of an
object were overwritten). -/
inductive Denotes (r : Regions) (N : Nat) (pl : List Place) (m : Mem) (c : Gc.Mem) (cur lim lo hi : Nat) : Nat → Gc.Val → Prop
  | ref {a p} : a < N → There c a → pl[a]? = some p → Denotes r N pl m c cur lim lo hi p.addr (.ref a)
  | other {w} : ¬Own r w → Denotes r N pl m c cur lim lo hi w (.imm w)
  | quiet {w} : rd m w 4 ≠ COPIED → ¬(TNIL ≤ rd m w 4 ∧ rd m w 4 < TNIL + r.types) → rd m w 4 ≠ FWD →
      (∀ (a : Nat) p, a < N → There c a → pl[a]? = some p → Disjoint w 4 p.addr 16 ∨ w = p.addr + 12) →
      Disjoint w 4 cur (lim - cur) → Disjoint w 4 lo (hi - lo) → Denotes r N pl m c cur lim lo hi w (.imm w)

/-- The word that stands for a value. -/
inductive Stands (pl : List Place) : Nat → Gc.Val → Prop
  | ref {a : Nat} {p} : pl[a]? = some p → Stands pl p.addr (.ref a)
  | imm (w) : Stands pl w (.imm w)

/-- The room needed to copy everything in the collected space. -/
def need (isFrom : Nat → Bool) (pl : List Place) (c : Gc.Mem) : Nat → Nat
  | 0 => 0
  | a+1 => need isFrom pl c a + (match c[a]?, pl[a]? with
    | some (.obj _), some p => if isFrom a then p.size else 0
    | _, _ => 0)

/-- The free space from `cur` to `lim` and the stack from `lo` to `hi` lie apart from each other and from the cells. -/
structure Free (pl : List Place) (c : Gc.Mem) (cur lim lo hi : Nat) : Prop where
  order : cur ≤ lim ∧ lim ≤ 2 ^ 48 ∧ lo ≤ hi ∧ cur % 8 = 0 ∧ 8 ≤ cur
  stack : Disjoint cur (lim - cur) lo (hi - lo)
  cells : ∀ (a : Nat) p, There c a → pl[a]? = some p → Disjoint p.addr p.size cur (lim - cur) ∧ Disjoint p.addr p.size lo (hi - lo)

/-- Memory shows the cells, the free space and the stack lie apart, and there is room to copy all that may be copied. -/
structure Inv (r : Regions) (size : Nat → Nat) (major : Bool) (isFrom : Nat → Bool) (W : Gc.Obj → List Byte → Prop) (N lim lo hi : Nat)
    (pl : List Place) (s : St) (c : Gc.Mem) : Prop where
  shows : Shows r size major isFrom W N pl s.mem c
  free : Free pl c s.cur lim lo hi
  room : s.cur + need isFrom pl c N ≤ lim

/-- Memory that scanning does not change: not the stack, not the free space, not the header of an object in the collected
space. -/
def Still (isFrom : Nat → Bool) (pl : List Place) (c : Gc.Mem) (cur lim lo hi x : Nat) : Prop :=
  ¬(lo ≤ x ∧ x < hi) ∧ ¬(cur ≤ x ∧ x < lim) ∧ ∀ (a : Nat) p, isFrom a = true → There c a → pl[a]? = some p →
    ¬(p.addr ≤ x ∧ x < p.addr + 16)

end Potion.Scan
