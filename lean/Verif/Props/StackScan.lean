import Verif.Proof.Scan
import Verif.Proof.Heap
import Verif.Props.Gc
/-!
C61: the machine stack as the collector's set of roots. `Inv` (memory shows the cells, there is room, everything lies apart),
`Denotes`, `Stands`, `Still` are in Spec/Scan.lean.
-/
namespace Potion.Scan
open Potion

/-- C61. Scanning the stack from `esp` to `cstack` (inclusive) updates its words as the collector updates the values they
denote: afterwards each word stands for the updated value, memory shows the updated cells, and no other byte has changed. -/
theorem C61_scan_partial {r : Regions} {size major isFrom W} {N lim fuel cstack esp : Nat} {pl} {s : St} {c c' : Gc.Mem}
    {vs vs' : List Gc.Val} (hW : ∀ o bs, W o bs → W o.copy bs) (ht : TNIL + r.types ≤ FWD)
    (I : Inv r size major isFrom W N lim esp (cstack + 8) pl s c) (hc : esp ≤ cstack) (h8 : (cstack - esp) % 8 = 0)
    (hfuel : c'.length + 1 ≤ fuel)
    (D : List.Forall₂ (Denotes r N pl s.mem c s.cur lim esp (cstack + 8)) (words s.mem esp ((cstack - esp) / 8 + 1)) vs)
    (e : Gc.updList isFrom c vs = some (c', vs')) :
    ∃ s' pl', markStack r size major fuel cstack esp s = some s' ∧ Inv r size major isFrom W N lim esp (cstack + 8) pl' s' c' ∧
      (∃ l, pl' = pl ++ l) ∧ List.Forall₂ (Stands pl') (words s'.mem esp ((cstack - esp) / 8 + 1)) vs' ∧
      ∀ x, Still isFrom pl c s.cur lim esp (cstack + 8) x → s'.mem x = s.mem x := by
  obtain ⟨s', pl', e1, e2, e3, e4⟩ := markArray_sim hW ht I (Nat.le_refl _) (by omega) hfuel D e
  refine ⟨s', pl', ?_, e2, e3.grows, e4, e3.still⟩
  have h1 : ((cstack : Int) - esp) / 8 + 1 = (((cstack - esp) / 8 + 1 : Nat) : Int) := by omega
  simp only [markStack, h1]
  rw [if_neg (by omega)]
  exact e1

/-- C61. Nothing is scanned if the stack pointer is above the recorded base by a word or more. -/
theorem C61_none {r : Regions} {size major fuel} {cstack esp : Nat} {s : St} (h : cstack + 8 ≤ esp) :
    markStack r size major fuel cstack esp s = some s := by
  simp only [markStack]
  rw [if_pos (by omega)]

/-- C61. Together with C32: a full collection started with this stack keeps everything reachable from the values on it, and
the words on the stack are then those of the new places. -/
theorem C61_full_partial {r : Regions} {size W} {h : Gc.Heap} (R : Gc.Run h) {lim cstack esp : Nat} {pl} {s : St}
    (hW : ∀ o bs, W o bs → W o.copy bs) (ht : TNIL + r.types ≤ FWD)
    (I : Inv r size true h.isMovable W h.mem.length lim esp (cstack + 8) pl s h.mem) (hc : esp ≤ cstack) (h8 : (cstack - esp) % 8 = 0)
    (D : List.Forall₂ (Denotes r h.mem.length pl s.mem h.mem s.cur lim esp (cstack + 8))
      (words s.mem esp ((cstack - esp) / 8 + 1)) h.roots) :
    ∃ h' φ fuel s' pl', h.major = some h' ∧
      Gc.Preserved (Gc.Live h.isMovable h.mem h.roots) h.mem h'.mem h.roots h'.roots φ ∧
      markStack r size true fuel cstack esp s = some s' ∧ (∃ l, pl' = pl ++ l) ∧
      List.Forall₂ (Stands pl') (words s'.mem esp ((cstack - esp) / 8 + 1)) h'.roots := by
  obtain ⟨m1, roots', m2, m3, e1, e2, e3, F, K, I1, g1, J, g3⟩ := Gc.collect R.inv.wfMajor (h.mem.length + 1) (by omega)
  obtain ⟨s', pl', q1, q2, q3, q4, q5⟩ := C61_scan_partial hW ht I hc h8 (Nat.le_refl _) D e1
  exact ⟨_, Gc.image h.isMovable m3, _, s', pl', by simp [Gc.Heap.major, Gc.major, e1, e2, e3]; rfl, F.preserved, q1, q3, q4⟩

/-- C61. The same for a minor collection, with C33. -/
theorem C61_minor_partial {r : Regions} {size W} {h : Gc.Heap} (R : Gc.Run h) {lim cstack esp : Nat} {pl} {s : St}
    (hW : ∀ o bs, W o bs → W o.copy bs) (ht : TNIL + r.types ≤ FWD)
    (I : Inv r size false h.isYoung W h.mem.length lim esp (cstack + 8) pl s h.mem) (hc : esp ≤ cstack) (h8 : (cstack - esp) % 8 = 0)
    (D : List.Forall₂ (Denotes r h.mem.length pl s.mem h.mem s.cur lim esp (cstack + 8))
      (words s.mem esp ((cstack - esp) / 8 + 1)) h.roots) :
    ∃ h' φ fuel s' pl', h.minor = some h' ∧
      Gc.Preserved (Gc.Live h.isYoung h.mem h.roots) h.mem h'.mem h.roots h'.roots φ ∧
      markStack r size false fuel cstack esp s = some s' ∧ (∃ l, pl' = pl ++ l) ∧
      List.Forall₂ (Stands pl') (words s'.mem esp ((cstack - esp) / 8 + 1)) h'.roots := by
  obtain ⟨m1, roots', m2, m3, e1, e2, e3, F, K, I1, g1, J, g3⟩ := Gc.collect R.inv.wfMinor (h.mem.length + 1) (by omega)
  obtain ⟨s', pl', q1, q2, q3, q4, q5⟩ := C61_scan_partial hW ht I hc h8 (Nat.le_refl _) D e1
  exact ⟨_, Gc.image h.isYoung m3, _, s', pl', by simp [Gc.Heap.minor, Gc.minor, e1, e2, e3]; rfl, F.preserved, q1, q3, q4⟩

/-! ### A stack, and what goes wrong -/
namespace Ex

/-- A string with the bytes of the number of a type in it. -/
def chars : List Nat := [97, 97, 97, 97, 97, 1, 0, 37, 0] ++ List.replicate 18 98
/-- After start-up, and making the string. -/
def h : Gc.Heap := Gc.Ex.h0.intern chars
def r : Regions := ⟨0x1000, 0x1800, 0x1000, 0x3000, 0x4000, 0x5000, 64⟩
def pl : List Place := [⟨0x1100, 16⟩, ⟨0x2010, 40⟩]
def size (v : Nat) : Nat := if v = 0x2010 then 40 else 16
/-- The list and the string. -/
def put (stack : List Nat) : Mem := fun x =>
  if x < 0x1110 then BitVec.ofNat 8 (0x250008 / 256 ^ (x - 0x1100))
  else if x < 0x2018 then BitVec.ofNat 8 (0x250002 / 256 ^ (x - 0x2010))
  else if x < 0x201c then BitVec.ofNat 8 (27 / 256 ^ (x - 0x2018))
  else if x < 0x2037 then BitVec.ofNat 8 (chars.getD (x - 0x201c) 0)
  else if x < 0x9000 then 0
  else BitVec.ofNat 8 (stack.getD ((x - 0x9000) / 8) 0 / 256 ^ ((x - 0x9000) % 8))
/-- The bytes of a string hold its length and its characters. -/
def W : Gc.Obj → List Byte → Prop
  | .raw l, bs => (bs.drop 12).take l.length = l.map (BitVec.ofNat 8)
  | _, _ => True

theorem there {a : Nat} (t : There h.mem a) : a = 0 ∨ a = 1 := by
  obtain ⟨x, e, _⟩ := t
  have := (List.getElem?_eq_some_iff.1 e).1
  have l : h.mem.length = 2 := rfl
  omega

theorem inv (stack : List Nat) (hi : Nat) (hh : 0x9000 ≤ hi) (ok : ∀ a, a < 0x9000 → put stack a = put [] a) :
    Inv r size false h.isYoung W 2 0x5000 0x9000 hi pl ⟨put stack, 0x4008⟩ h.mem := by
  have rds : ∀ a n, a + n ≤ 0x9000 → rd (put stack) a n = rd (put []) a n := by
    intro a n le
    exact rd_congr fun x _ h2 => ok x (by omega)
  refine ⟨⟨rfl, by decide, ?_, ?_, ?_, ?_, ?_, ?_, ?_, ?_⟩, ⟨⟨by dsimp only; omega, by omega, hh, by dsimp only, by dsimp only; omega⟩, .inl (by dsimp only; omega), ?_⟩,
    show 0x4008 + need h.isYoung pl h.mem 2 ≤ 0x5000 by decide +kernel⟩
  · intro a ha
    have : h.space[a]? = none := List.getElem?_eq_none (by simpa [h, Gc.Heap.intern, Gc.Heap.alloc, Gc.Ex.h0] using ha)
    simp [Gc.Heap.isYoung, this]
  · intro a p t hp
    rcases there t with rfl | rfl <;> cases Option.some.inj hp <;> decide
  · intro a b p q t u ne hp hq
    rcases there t with rfl | rfl <;> rcases there u with rfl | rfl <;> cases Option.some.inj hp <;> cases Option.some.inj hq
    · exact absurd rfl ne
    · exact .inl (by decide)
    · exact .inr (by decide)
    · exact absurd rfl ne
  · intro a p t _ hp
    rcases there t with rfl | rfl <;> cases Option.some.inj hp
    · exact ⟨.inl (by decide), ⟨fun h => absurd h (by decide +kernel), fun h => absurd (show Protected r 0x1100 by decide) h.1⟩, rfl⟩
    · exact ⟨.inr (.inl (by decide)), ⟨fun _ => ⟨by decide, .inl (by decide)⟩, fun _ => by decide +kernel⟩, rfl⟩
  · intro a o p e hp
    rcases there ⟨_, e, by simp⟩ with rfl | rfl <;> cases Option.some.inj hp <;> cases Option.some.inj e
    · refine ⟨?_, ?_, trivial⟩ <;> (rw [rds _ _ (by decide)]; decide +kernel)
    · refine ⟨?_, ?_, ?_⟩
      · rw [rds _ _ (by decide)]; decide +kernel
      · rw [rds _ _ (by decide)]; decide +kernel
      · have : bytes (put stack) 0x2010 40 = bytes (put []) 0x2010 40 := by
          apply List.map_congr_left
          intro i hi
          have : i < 40 := by simpa using hi
          exact ok _ (by omega)
        show W _ (bytes (put stack) 0x2010 40)
        rw [this]
        show (List.take _ (List.drop 12 _)) = _
        decide +kernel
  · intro a b p e hp
    rcases there ⟨_, e, by simp⟩ with rfl | rfl <;> cases Option.some.inj e
  · intro a b e
    rcases there ⟨_, e, by simp⟩ with rfl | rfl <;> cases Option.some.inj e
  · intro a b p e hp
    rcases there ⟨_, e, by simp⟩ with rfl | rfl <;> cases Option.some.inj e
  · intro a p t hp
    rcases there t with rfl | rfl <;> cases Option.some.inj hp <;> exact ⟨.inl (by dsimp only; omega), .inl (by decide)⟩

theorem below (stack : List Nat) : ∀ a, a < 0x9000 → put stack a = put [] a := by
  intro a ha
  simp only [put, ha, if_true]

/-- The string and the list on the stack: the hypotheses of `C61_minor_partial` hold. -/
example : ∃ h' φ fuel s' pl', h.minor = some h' ∧
      Gc.Preserved (Gc.Live h.isYoung h.mem h.roots) h.mem h'.mem h.roots h'.roots φ ∧
      markStack r size false fuel 0x9008 0x9000 ⟨put [0x2010, 0x1100], 0x4008⟩ = some s' ∧ (∃ l, pl' = pl ++ l) ∧
      List.Forall₂ (Stands pl') (words s'.mem 0x9000 2) h'.roots := by
  refine C61_minor_partial (.step (.boot Gc.Ex.boot0) (.intern _)) (W := W) (lim := 0x5000) ?_ (by decide)
    (inv _ _ (by decide) (below _)) (by decide) (by decide) ?_
  · intro o bs w; cases o <;> exact w
  · have : words (put [0x2010, 0x1100]) 0x9000 2 = [0x2010, 0x1100] := by decide +kernel
    show List.Forall₂ _ (words (put [0x2010, 0x1100]) 0x9000 2) _
    rw [this]
    exact .cons (.ref (a := 1) (p := ⟨0x2010, 40⟩) (by decide) ⟨_, rfl, by simp⟩ rfl)
      (.cons (.ref (a := 0) (p := ⟨0x1100, 16⟩) (by decide) ⟨_, rfl, by simp⟩ rfl) .nil)

end Ex

/-- C61, refuted for integers: nothing keeps an integer on the stack from being taken for an address. Here the integer 4112
(the word 0x2021) is an odd address in the middle of a string, at characters that read as the number of a type. A collection
replaces it by an address and overwrites sixteen characters of the string, which is copied after that. -/
theorem C61_refuted : ∃ r size W pl s s', ∃ h : Gc.Heap, ∃ chars, Gc.Run h ∧ h.mem[1]? = some (.obj (.raw chars)) ∧
    (∀ m, W (.raw chars) (bytes m 0x2010 40) → bytes m 0x201c chars.length = chars.map (BitVec.ofNat 8)) ∧
    Inv r size false h.isYoung W 2 0x5000 0x9000 0x9018 pl s h.mem ∧ pl[1]? = some ⟨0x2010, 40⟩ ∧
    words s.mem 0x9000 3 = [2 * 4112 + 1, 0x2010, 0x1100] ∧
    markStack r size false 2 0x9010 0x9000 s = some s' ∧
    words s'.mem 0x9000 3 = [s.cur, s.cur + 16, 0x1100] ∧
    bytes s'.mem (s.cur + 16 + 12) chars.length ≠ chars.map (BitVec.ofNat 8) := by
  refine ⟨Ex.r, Ex.size, Ex.W, Ex.pl, ⟨Ex.put [0x2021, 0x2010, 0x1100], 0x4008⟩, _, Ex.h, Ex.chars,
    .step (.boot Gc.Ex.boot0) (.intern _), rfl, ?_, Ex.inv _ _ (by decide) (Ex.below _), rfl, by decide +kernel, rfl,
    by decide +kernel, by decide +kernel⟩
  intro m hw
  rw [← hw]
  rfl

end Potion.Scan
