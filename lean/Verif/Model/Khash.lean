/-!
Model of Potion's hash table (/repo/core/khash.h lines 42-171), generic in key, value and hash function.

Simplifications: the bucket array (2-bit flag, key cell, value cell per bucket) is a function from bucket index to
`Slot`; the byte-level placement of flags, keys and values is modelled separately in `Model/KhashLayout.lean`.
Counters are natural numbers (the C fields are 32-bit; the table would have to exceed 2^28 buckets to notice).
`kh_put` followed by the caller's `kh_val(..) = value` (table.c:128-130, 175-178, 210-213, 52-54) is one operation.
Loops take fuel; `none` means "still running", so termination is a theorem, not an assumption.
-/
namespace Potion

/-- khash.h:26-35: the two flag bits of a bucket (empty / deleted / live) with its key and value cells. -/
inductive Slot (K V : Type) where
  | empty
  | del
  | live (k : K) (v : V)
  deriving DecidableEq, Repr

/-- Point update of a functional array. -/
def upd {α : Type} (f : Nat → α) (i : Nat) (x : α) : Nat → α := fun j => if j = i then x else f j

/-- khash.h:42 `PN_TABLE_HEADER`: n_buckets, size, n_occupied, upper_bound, and the buckets. -/
structure KH (K V : Type) where
  nb : Nat
  size : Nat
  nOcc : Nat
  ub : Nat
  slot : Nat → Slot K V

variable {K V : Type}

/-- A freshly allocated (zeroed) table header: table.c:41-43. -/
def KH.new : KH K V := { nb := 0, size := 0, nOcc := 0, ub := 0, slot := fun _ => .empty }

/-- khash.h:40, 89, 130: `(khint_t)(n * 0.77 + 0.5)`. With IEEE doubles this is the exact floor of (77n+50)/100 for
every power of two below 2^32, as 77n+50 is never a multiple of 100 there. -/
def upperBound (n : Nat) : Nat := (77 * n + 50) / 100

/-- khash.h:73, 142: first probed bucket `k & mask`. -/
def probe0 (n h : Nat) : Nat := h &&& (n - 1)
/-- khash.h:37, 74, 145: probe increment `(k | 1) & mask`. -/
def probeInc (n h : Nat) : Nat := (h ||| 1) &&& (n - 1)
/-- khash.h:76, 111, 148: next bucket `(i + inc) & mask`. -/
def probeNext (n inc i : Nat) : Nat := (i + inc) &&& (n - 1)

/-- khash.h:75-79: the probe loop of `kh_get`. Result: bucket index, or `n_buckets` if absent. -/
def KH.getLoop [DecidableEq K] (h : KH K V) (key : K) (inc last : Nat) : (fuel : Nat) → (i : Nat) → Option Nat
  | 0, _ => none
  | f+1, i =>
    let next :=
      let i' := probeNext h.nb inc i
      if i' = last then some h.nb else getLoop h key inc last f i'
    match h.slot i with
    | .empty => some h.nb
    | .del => next
    | .live k _ => if k = key then some i else next

/-- khash.h:68-81 `kh_get`. -/
def KH.get [DecidableEq K] (hash : K → Nat) (fuel : Nat) (h : KH K V) (key : K) : Option Nat :=
  if h.nb ≠ 0 then
    h.getLoop key (probeInc h.nb (hash key)) (probe0 h.nb (hash key)) fuel (probe0 h.nb (hash key))
  else some 0

/-- khash.h:146-155: the probe loop of `kh_put`; `site` is the last deleted bucket seen (or n_buckets). -/
def KH.putLoop [DecidableEq K] (h : KH K V) (key : K) (inc last : Nat) :
    (fuel : Nat) → (i site : Nat) → Option Nat
  | 0, _, _ => none
  | f+1, i, site =>
    let next (site' : Nat) :=
      let i' := probeNext h.nb inc i
      if i' = last then
        -- khash.h:149 `x = site; break;` then 151-154
        (if site' = h.nb then
          (match h.slot i' with
           | .empty => if site' ≠ h.nb then some site' else some i'
           | _ => some i')
         else some site')
      else putLoop h key inc last f i' site'
    match h.slot i with
    | .empty => if site ≠ h.nb then some site else some i
    | .del => next i
    | .live k _ => if k = key then some i else next site

/-- khash.h:139-156: the bucket chosen by `kh_put`. -/
def KH.putFind [DecidableEq K] (hash : K → Nat) (fuel : Nat) (h : KH K V) (key : K) : Option Nat :=
  let i := probe0 h.nb (hash key)
  match h.slot i with
  | .empty => some i
  | _ => h.putLoop key (probeInc h.nb (hash key)) i fuel i h.nb

/-- khash.h:157-169 and the caller's value store: occupy bucket `x`. -/
def KH.putAt (h : KH K V) (x : Nat) (key : K) (v : V) : KH K V :=
  match h.slot x with
  | .empty => { h with slot := upd h.slot x (.live key v), size := h.size + 1, nOcc := h.nOcc + 1 }
  | .del => { h with slot := upd h.slot x (.live key v), size := h.size + 1 }
  | .live k _ => { h with slot := upd h.slot x (.live k v) }

/-- khash.h:172-178 `kh_del`. -/
def KH.delAt (h : KH K V) (x : Nat) : KH K V :=
  if x ≠ h.nb then
    match h.slot x with
    | .live _ _ => { h with slot := upd h.slot x .del, size := h.size - 1 }
    | _ => h
  else h

/-! ### In-place rehash (khash.h:82-133) -/

/-- State of the rehash: old bucket flags still "live", new bucket flags "not empty", and the shared cells. -/
structure Rehash (K V : Type) where
  oldLive : Nat → Bool
  newFull : Nat → Bool
  cell : Nat → Option (K × V)

/-- khash.h:111 `while (!__ac_isempty(new_flags, i)) i = (i + inc) & new_mask;` (no cycle check in the C code). -/
def findFree (n : Nat) (full : Nat → Bool) (inc : Nat) : (fuel : Nat) → (i : Nat) → Option Nat
  | 0, _ => none
  | f+1, i => if full i then findFree n full inc f (probeNext n inc i) else some i

/-- khash.h:105-124: the `while (1)` kick-out loop placing `(key, val)`. `n` old and `m` new bucket count. -/
def placeLoop (hash : K → Nat) (n m : Nat) : (fuel : Nat) → Rehash K V → K × V → Option (Rehash K V)
  | 0, _, _ => none
  | f+1, r, kv =>
    match findFree m r.newFull (probeInc m (hash kv.1)) m (probe0 m (hash kv.1)) with
    | none => none
    | some i =>
      let r1 := { r with newFull := upd r.newFull i true, cell := upd r.cell i (some kv) }
      if i < n && r.oldLive i then
        match r.cell i with
        | some kv' => placeLoop hash n m f { r1 with oldLive := upd r.oldLive i false } kv'
        | none => none
      else some r1

/-- khash.h:99-126: `for (j = 0; j != n_buckets; ++j)`; processes `cnt` buckets starting at `j`. -/
def rehashLoop (hash : K → Nat) (n m : Nat) : (cnt : Nat) → (j : Nat) → Rehash K V → Option (Rehash K V)
  | 0, _, r => some r
  | c+1, j, r =>
    if r.oldLive j then
      match r.cell j with
      | some kv =>
        match placeLoop hash n m (n + 1) { r with oldLive := upd r.oldLive j false } kv with
        | some r' => rehashLoop hash n m c (j+1) r'
        | none => none
      | none => none
    else rehashLoop hash n m c (j+1) r

/-- Is the bucket live (`__kh_iseither == 0`, khash.h:31)? -/
def Slot.isLive : Slot K V → Bool
  | .live _ _ => true
  | _ => false

/-- Is the bucket not empty (khash.h:29)? -/
def Slot.isOcc : Slot K V → Bool
  | .empty => false
  | _ => true

/-- The key/value cells of a bucket (only meaningful when live). -/
def Slot.item : Slot K V → Option (K × V)
  | .live k v => some (k, v)
  | _ => none

/-- khash.h:82-133 `kh_resize`. The requested size is ignored: the C code overwrites its parameter with
`n_buckets ? n_buckets<<1 : 4` (line 88). -/
def KH.resize (hash : K → Nat) (h : KH K V) : Option (KH K V) :=
  let m := if h.nb ≠ 0 then h.nb * 2 else 4
  if h.size ≥ upperBound m then some h
  else
    let r0 : Rehash K V :=
      { oldLive := fun i => (h.slot i).isLive, newFull := fun _ => false, cell := fun i => (h.slot i).item }
    match rehashLoop hash h.nb m h.nb 0 r0 with
    | none => none
    | some r =>
      some { nb := m, size := h.size, nOcc := h.size, ub := upperBound m,
             slot := fun i => if i < m && r.newFull i then
                                (match r.cell i with | some kv => .live kv.1 kv.2 | none => .empty)
                              else .empty }

/-- khash.h:134-170 `kh_put` followed by storing the value. -/
def KH.put [DecidableEq K] (hash : K → Nat) (h : KH K V) (key : K) (v : V) : Option (KH K V) :=
  match (if h.nOcc ≥ h.ub then h.resize hash else some h) with
  | none => none
  | some h1 =>
    match h1.putFind hash h1.nb key with
    | none => none
    | some x => some (h1.putAt x key v)

/-! ### The Table methods (table.c) -/

/-- table.c:70-76 `potion_table_at`: `none` = diverges, `some none` = nil (absent). -/
def KH.at [DecidableEq K] (hash : K → Nat) (h : KH K V) (key : K) : Option (Option V) :=
  match h.get hash h.nb key with
  | none => none
  | some k =>
    if k ≠ h.nb then
      match h.slot k with
      | .live _ v => some (some v)
      | _ => some none      -- unreachable: kh_get returns only live buckets
    else some none

/-- table.c:139-146 `potion_table_remove`. -/
def KH.remove [DecidableEq K] (hash : K → Nat) (h : KH K V) (key : K) : Option (KH K V) :=
  match h.get hash h.nb key with
  | none => none
  | some k => if k ≠ h.nb then some (h.delAt k) else some h

/-- The loops `for (k = kh_begin; k != kh_end; ++k) if (kh_exist ...)` of table.c:28-34, 86-89, 105-114, 173-179,
231-234, 250-253, 271-280: live associations in bucket order. -/
def KH.entries (h : KH K V) : List (K × V) := (List.range h.nb).filterMap fun i => (h.slot i).item

/-- table.c:160-164 `potion_table_length`. -/
def KH.length (h : KH K V) : Nat := h.size

/-- table.c:225-238 `potion_table_keys`, 244-257 `potion_table_values`. -/
def KH.keys (h : KH K V) : List K := h.entries.map (·.1)
def KH.values (h : KH K V) : List V := h.entries.map (·.2)

/-- Fold of `put` over a list of associations. -/
def KH.putAll [DecidableEq K] (hash : K → Nat) : KH K V → List (K × V) → Option (KH K V)
  | h, [] => some h
  | h, (k, v) :: rest => match h.put hash k v with | none => none | some h' => putAll hash h' rest

/-- table.c:166-182 `potion_table_clone`: new table, one `kh_resize` (to 4 buckets), then a put per association. -/
def KH.clone [DecidableEq K] (hash : K → Nat) (h : KH K V) : Option (KH K V) :=
  match (KH.new : KH K V).resize hash with
  | none => none
  | some t => t.putAll hash h.entries

/-- table.c:194-219 `potion_table_slice` with a key list. -/
def KH.sliceLoop [DecidableEq K] (hash : K → Nat) (h : KH K V) : KH K V → List K → Option (KH K V)
  | t2, [] => some t2
  | t2, k :: ks =>
    match h.at hash k with
    | none => none
    | some none => sliceLoop hash h t2 ks
    | some (some v) =>
      match t2.put hash k v with
      | none => none
      | some t2' => sliceLoop hash h t2' ks

def KH.slice [DecidableEq K] (hash : K → Nat) (h : KH K V) (keys : List K) : Option (KH K V) :=
  match (KH.new : KH K V).resize hash with
  | none => none
  | some t => KH.sliceLoop hash h t keys

/-- table.c:263-284 `potion_table_filter`: clone, then for every live bucket `k` of the *original* whose predicate is
false, `kh_del(t2, k)` — the original's bucket index used in the clone. An index beyond the clone's buckets is an
out-of-bounds access (`none`). -/
def KH.filter [DecidableEq K] (hash : K → Nat) (h : KH K V) (p : K → V → Bool) : Option (KH K V) :=
  match h.clone hash with
  | none => none
  | some t2 =>
    (List.range h.nb).foldlM (fun t i =>
      match h.slot i with
      | .live k v => if p k v then some t else if i ≤ t.nb then some (t.delAt i) else none
      | _ => some t) t2

/-- One table operation of a history. -/
inductive TOp (K V : Type) where
  | put (k : K) (v : V)
  | remove (k : K)

/-- Apply one operation. -/
def KH.apply [DecidableEq K] (hash : K → Nat) (h : KH K V) : TOp K V → Option (KH K V)
  | .put k v => h.put hash k v
  | .remove k => h.remove hash k

/-- Run a history from a table. -/
def KH.run [DecidableEq K] (hash : K → Nat) : KH K V → List (TOp K V) → Option (KH K V)
  | h, [] => some h
  | h, op :: ops => match h.apply hash op with | none => none | some h' => run hash h' ops

/-- table.c:46-63 `potion_table_cast` on a tuple: `PN_TUPLE_EACH` puts element `i` under the key `PN_NUM(i)` (here `num i`). -/
def KH.castLoop [DecidableEq K] (hash : K → Nat) (num : Nat → K) : KH K V → Nat → List V → Option (KH K V)
  | h, _, [] => some h
  | h, i, v :: vs =>
    match h.put hash (num i) v with
    | none => none
    | some h' => castLoop hash num h' (i+1) vs

def KH.cast [DecidableEq K] (hash : K → Nat) (num : Nat → K) (l : List V) : Option (KH K V) :=
  KH.castLoop hash num KH.new 0 l

end Potion
