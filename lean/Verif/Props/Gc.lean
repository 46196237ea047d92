import Verif.Proof.Heap
import Mathlib.Logic.Relation
/-!
C32, C33, C34, C36, C50: memory. `Run h` (Spec/Heap.lean): `h` is the heap at some point of a program that uses it
correctly. `Live`, `Preserved` are in Spec/Gc.lean.
-/
namespace Potion.Gc

/-! ### C32, C33 -/

/-- C32. A full collection succeeds, keeps everything reachable from the roots and the protected region (same shape,
contents and sharing), and keeps nothing else. Partial: `Run` leaves out what `Supported` does, see the refutations. -/
theorem C32_full_partial {h : Heap} (r : Run h) : ∃ h' φ, h.major = some h' ∧
    Preserved (Live h.isMovable h.mem h.roots) h.mem h'.mem h.roots h'.roots φ ∧
    ∀ (n : Nat) o, h'.mem[n]? = some (.obj o) → ∃ v, Live h.isMovable h.mem h.roots v ∧ φ v = n := by
  obtain ⟨m3, roots', e, F, _⟩ := r.inv.major
  exact ⟨_, image h.isMovable m3, e, F.preserved, F.only⟩

/-- C33. A minor collection, at any point of the program, keeps everything reachable from the roots and from objects outside
the birth region (same shape, contents and sharing), and keeps nothing else. -/
theorem C33_minor_partial {h : Heap} (r : Run h) : ∃ h' φ, h.minor = some h' ∧
    Preserved (Live h.isYoung h.mem h.roots) h.mem h'.mem h.roots h'.roots φ ∧
    ∀ (n : Nat) o, h'.mem[n]? = some (.obj o) → ∃ v, Live h.isYoung h.mem h.roots v ∧ φ v = n := by
  obtain ⟨m1, m3, roots', e, F, _⟩ := r.inv.minor
  exact ⟨_, image h.isYoung m3, e, F.preserved, F.only⟩

/-- What `Preserved` means for a program: the values along every path correspond. -/
theorem Preserved.at {live : Addr → Prop} {m m' : Mem} {roots roots' : List Val} {φ : Addr → Addr}
    (P : Preserved live m m' roots roots' φ) (hroot : ∀ a v, Val.ref a ∈ roots → Resolves m a v → live v)
    (hstep : ∀ v o a w, live v → m[v]? = some (.obj o) → Val.ref a ∈ o.vals → Resolves m a w → live w)
    {p r} (h : At m roots p r) : (∃ r', At m' roots' p r' ∧ Corr m m' φ r r') ∧ ∀ a v, r = .ref a → Resolves m a v → live v := by
  have get : ∀ {l l' : List Val} {i : Nat} {r}, List.Forall₂ (Corr m m' φ) l l' → l[i]? = some r →
      ∃ r', l'[i]? = some r' ∧ Corr m m' φ r r' := by
    intro l l' i r hf e
    induction hf generalizing i with
    | nil => simp at e
    | cons h1 _ ih =>
      cases i with
      | zero => obtain rfl := by simpa using e
                exact ⟨_, by simp, h1⟩
      | succ i => exact ih (by simpa using e)
  induction h with
  | root e =>
    obtain ⟨r', h1, h2⟩ := get P.top e
    refine ⟨⟨r', .root h1, h2⟩, ?_⟩
    rintro a v rfl hv
    exact hroot a v (List.mem_of_getElem? e) hv
  | @field p a v o i r _ hv ho e ih =>
    obtain ⟨⟨r', h1, h2⟩, h3⟩ := ih
    have lv := h3 a v rfl hv
    obtain ⟨o', g1, _, g3⟩ := P.objs v o lv ho
    obtain ⟨r2, k1, k2⟩ := get g3 e
    refine ⟨?_, ?_⟩
    · cases h2 with
      | ref c1 c2 =>
        cases c1.unique hv
        exact ⟨r2, .field h1 c2 g1 k1, k2⟩
    · rintro b w rfl hw
      exact hstep v o b w lv ho (List.mem_of_getElem? e) hw

/-- What the program can observe at the end of a path: an immediate, or the shape of an object. -/
inductive Observes (m : Mem) (roots : List Val) (p : List Nat) : Nat ⊕ Shape → Prop
  | imm {w} : At m roots p (.imm w) → Observes m roots p (.inl w)
  | obj {a v o} : At m roots p (.ref a) → Resolves m a v → m[v]? = some (.obj o) → Observes m roots p (.inr o.shape)

/-- Two paths lead to the same object. -/
def Same (m : Mem) (roots : List Val) (p q : List Nat) : Prop :=
  ∃ a b v, At m roots p (.ref a) ∧ At m roots q (.ref b) ∧ Resolves m a v ∧ Resolves m b v

theorem At.unique {m roots p r r'} (h : At m roots p r) (h' : At m roots p r') : r = r' := by
  induction h generalizing r' with
  | root e =>
    generalize hq : [_] = q at h'
    cases h' with
    | root e' => obtain rfl := by simpa using hq
                 rw [e] at e'; exact Option.some.inj e'
    | @field p' _ _ _ _ _ h1 =>
      have : p' = [] := by
        have := congrArg List.length hq
        simp only [List.length_append, List.length_cons, List.length_nil] at this
        exact List.eq_nil_of_length_eq_zero (by omega)
      subst this
      exfalso
      generalize hn : ([] : List Nat) = n at h1
      cases h1 <;> simp at hn
  | @field p a v o i r h1 hv ho e ih =>
    generalize hq : p ++ [i] = q at h'
    cases h' with
    | root e' =>
      have : p = [] := by
        have := congrArg List.length hq
        simp only [List.length_append, List.length_cons, List.length_nil] at this
        exact List.eq_nil_of_length_eq_zero (by omega)
      subst this
      exfalso
      generalize hn : ([] : List Nat) = n at h1
      cases h1 <;> simp at hn
    | @field p' a' v' o' i' _ h1' hv' ho' e' =>
      obtain ⟨rfl, rfl⟩ : p = p' ∧ i = i' := by simpa using hq
      cases ih h1'
      cases hv.unique hv'
      rw [ho] at ho'
      obtain rfl := by simpa using ho'
      rw [e] at e'
      exact Option.some.inj e'

theorem Preserved.observe {live : Addr → Prop} {m m' : Mem} {roots roots' : List Val} {φ : Addr → Addr}
    (P : Preserved live m m' roots roots' φ) (hroot : ∀ a v, Val.ref a ∈ roots → Resolves m a v → live v)
    (hstep : ∀ v o a w, live v → m[v]? = some (.obj o) → Val.ref a ∈ o.vals → Resolves m a w → live w) :
    (∀ p x, Observes m roots p x → Observes m' roots' p x) ∧
    (∀ p q a b, At m roots p (.ref a) → At m roots q (.ref b) → (Same m roots p q ↔ Same m' roots' p q)) := by
  refine ⟨?_, ?_⟩
  · intro p x h
    cases h with
    | imm h =>
      obtain ⟨⟨r', h1, h2⟩, _⟩ := P.at hroot hstep h
      cases h2
      exact .imm h1
    | @obj a v o h hv ho =>
      obtain ⟨⟨r', h1, h2⟩, h3⟩ := P.at hroot hstep h
      obtain ⟨o', g1, g2, _⟩ := P.objs v o (h3 a v rfl hv) ho
      cases h2 with
      | ref c1 c2 =>
        cases c1.unique hv
        rw [← g2]
        exact .obj h1 c2 g1
  · intro p q a b hp hq
    obtain ⟨⟨r1, p1, p2⟩, p3⟩ := P.at hroot hstep hp
    obtain ⟨⟨r2, q1, q2⟩, q3⟩ := P.at hroot hstep hq
    cases p2 with
    | @ref _ v a' v1 v2 =>
      cases q2 with
      | @ref _ w b' w1 w2 =>
        constructor
        · rintro ⟨x, y, z, h1, h2, h3, h4⟩
          cases h1.unique hp
          cases h2.unique hq
          cases h3.unique v1
          cases h4.unique w1
          exact ⟨a', b', φ v, p1, q1, v2, w2⟩
        · rintro ⟨x, y, z, h1, h2, h3, h4⟩
          cases h1.unique p1
          cases h2.unique q1
          have e1 := h3.unique v2
          have e2 := h4.unique w2
          have := P.inj v w (p3 a v rfl v1) (q3 b w rfl w1) (e1.symm.trans e2)
          subst this
          exact ⟨a, b, v, hp, hq, v1, w1⟩

/-- C32. No program can tell that a full collection has happened: every path from the roots leads to the same immediate or
to an object of the same shape, and two paths lead to the same object after it exactly if they did before. -/
theorem C32_unobservable_partial {h h' : Heap} (r : Run h) (e : h.major = some h') :
    (∀ p x, Observes h.mem h.roots p x → Observes h'.mem h'.roots p x) ∧
    (∀ p q a b, At h.mem h.roots p (.ref a) → At h.mem h.roots q (.ref b) →
      (Same h.mem h.roots p q ↔ Same h'.mem h'.roots p q)) := by
  obtain ⟨h2, φ, e2, P, _⟩ := C32_full_partial r
  rw [e] at e2
  cases Option.some.inj e2
  exact P.observe (fun a v h1 h2 => .root h1 h2) (fun v o a w h1 h2 h3 h4 => .step h1 h2 h3 h4)

/-- C33. The same for a minor collection. -/
theorem C33_unobservable_partial {h h' : Heap} (r : Run h) (e : h.minor = some h') :
    (∀ p x, Observes h.mem h.roots p x → Observes h'.mem h'.roots p x) ∧
    (∀ p q a b, At h.mem h.roots p (.ref a) → At h.mem h.roots q (.ref b) →
      (Same h.mem h.roots p q ↔ Same h'.mem h'.roots p q)) := by
  obtain ⟨h2, φ, e2, P, _⟩ := C33_minor_partial r
  rw [e] at e2
  cases Option.some.inj e2
  exact P.observe (fun a v h1 h2 => .root h1 h2) (fun v o a w h1 h2 h3 h4 => .step h1 h2 h3 h4)

/-- C33. No value the program can reach is a reference to memory that has been given back: at any point of any history of
allocations, writes, reallocations and collections, the end of every path is an immediate or an object. -/
theorem C33_valid_partial {h : Heap} (r : Run h) {p a} (e : At h.mem h.roots p (.ref a)) :
    ∃ v o, Resolves h.mem a v ∧ h.mem[v]? = some (.obj o) := by
  have : ∃ v, Resolves h.mem a v := by
    generalize hv : Val.ref a = w at e
    cases e with
    | root e => subst hv; exact r.inv.roots a (List.mem_of_getElem? e)
    | field _ _ ho e => subst hv; exact r.inv.closed _ _ a ho (List.mem_of_getElem? e)
  obtain ⟨v, hv⟩ := this
  obtain ⟨o, ho⟩ := hv.obj
  exact ⟨v, o, hv, ho⟩

/-! ### A program, and what goes wrong -/
namespace Ex

/-- After start-up: one empty list. -/
def h0 : Heap := ⟨[.obj (.tuple [])], [.prot], [.ref 0], [], []⟩
/-- A new list, -/
def h1 : Heap := ⟨[.obj (.tuple []), .obj (.tuple [])], [.prot, .young], [.ref 1, .ref 0], [], []⟩
/-- stored in the old one, -/
def h2 : Heap := ⟨[.obj (.tuple [.ref 1]), .obj (.tuple [])], [.prot, .young], [.ref 1, .ref 0], [0], []⟩
/-- a collection, -/
def h3 : Heap := ⟨[.obj (.tuple [.ref 2]), .free, .obj (.tuple [])], [.prot, .gone, .old], [.ref 2, .ref 0], [], []⟩
/-- the new list grows, -/
def h4 : Heap := ⟨[.obj (.tuple [.ref 2]), .free, .fwd 3, .obj (.tuple [.imm 1])], [.prot, .gone, .old, .young],
  [.ref 2, .ref 0], [2], []⟩
/-- a collection, -/
def h5 : Heap := ⟨[.obj (.tuple [.ref 2]), .free, .fwd 4, .free, .obj (.tuple [.imm 1])],
  [.prot, .gone, .old, .gone, .old], [.ref 4, .ref 0], [], []⟩
/-- it is fetched from the old one, -/
def h6 : Heap := { h5 with roots := [.ref 2, .ref 4, .ref 0] }
/-- and a third list is made. -/
def h7 : Heap := ⟨[.obj (.tuple [.ref 2]), .free, .fwd 4, .free, .obj (.tuple [.imm 1]), .obj (.tuple [])],
  [.prot, .gone, .old, .gone, .old, .young], [.ref 5, .ref 2, .ref 4, .ref 0], [], []⟩

theorem boot0 : h0.Boot := by
  refine ⟨rfl, ?_, ?_, ?_, rfl, ?_⟩
  · intro a c e
    have lt := (List.getElem?_eq_some_iff.1 e).1
    obtain rfl : a = 0 := by simpa [h0] using lt
    obtain rfl := by simpa [h0] using e
    exact ⟨_, rfl, trivial⟩
  · intro a o b e hb
    have lt := (List.getElem?_eq_some_iff.1 e).1
    obtain rfl : a = 0 := by simpa [h0] using lt
    obtain rfl := by simpa [h0] using e
    simp [Obj.vals] at hb
  · intro b hb
    obtain rfl := by simpa [h0] using hb
    exact Nat.one_pos
  · intro s hs; simp [h0] at hs

theorem run1 : Run h1 := .step (.boot boot0) (.alloc (.tuple []) (by intro a ha; simp [Obj.vals] at ha) trivial)
theorem run2 : Run h2 := .step run1 (.write (a := 0) (v := 0) (o := .tuple [.ref 1]) (by simp [h1])
  (.here (o := .tuple []) rfl) (by simp [h1])
  (by intro a ha; left; simp [Obj.vals] at ha; simp [ha, h1]) trivial (.inl rfl) (by decide +kernel))
theorem run3 : Run h3 := .step run2 (.minor (by decide +kernel))
theorem run4 : Run h4 := .step run3 (.realloc (a := 2) (v := 2) (o := .tuple [.imm 1]) (by simp [h3])
  (.here (o := .tuple []) rfl) (by simp [h3]) (by intro a ha; simp [Obj.vals] at ha) trivial (by decide +kernel))
theorem run5 : Run h5 := .step run4 (.minor (by decide +kernel))
theorem run6 : Run h6 := .step run5 (.load (a := 0) (v := 0) (o := .tuple [.ref 2]) (by simp [h5])
  (.here (o := .tuple [.ref 2]) rfl) rfl (by simp [Obj.vals]))
theorem run7 : Run h7 := .step run6 (.alloc (.tuple []) (by intro a ha; simp [Obj.vals] at ha) trivial)

/-- The history above meets the hypotheses of the theorems, with forwarding pointers, old and freed cells; here a full
collection of its last heap. -/
example : Run h7 ∧ (h7.major).isSome = true ∧ At h7.mem h7.roots [3, 0, 0] (.imm 1) :=
  ⟨run7, by decide +kernel, .field (p := [3, 0]) (a := 2) (v := 4) (o := .tuple [.imm 1])
    (.field (p := [3]) (a := 0) (v := 0) (o := .tuple [.ref 2]) (.root rfl) (.here (o := .tuple [.ref 2]) rfl) rfl rfl)
    (.step rfl (.here (o := .tuple [.imm 1]) rfl)) rfl rfl⟩

end Ex

/-- C33, refuted for the list and table methods: they write into the storage, but touch the reference they were given. If
that is a forwarding pointer in the old region, the storage is not scanned, and what was stored is lost: here the third
list is stored in the second through the reference kept in the first, and is given back by the next collection although
the program can still reach it. -/
theorem C33_refuted_forwarded : ∃ h h1 h2 h3 : Heap, ∃ a v o, Run h ∧ Val.ref a ∈ h.roots ∧ Resolves h.mem a v ∧
    h.HoldsAt v o ∧ h.Supported o ∧ h.write a o = some h1 ∧
    (h2 = { h1 with roots := [.ref 0] } ∧ Val.ref 0 ∈ h1.roots) ∧ h2.minor = some h3 ∧
    ∃ x, At h3.mem h3.roots [0, 0, 0] (.ref x) ∧ h3.mem[x]? = some .free := by
  refine ⟨Ex.h7, ⟨[.obj (.tuple [.ref 2]), .free, .fwd 4, .free, .obj (.tuple [.ref 5]), .obj (.tuple [])],
    [.prot, .gone, .old, .gone, .old, .young], [.ref 5, .ref 2, .ref 4, .ref 0], [2], []⟩, _,
    ⟨[.obj (.tuple [.ref 2]), .free, .fwd 4, .free, .obj (.tuple [.ref 5]), .free],
    [.prot, .gone, .old, .gone, .old, .gone], [.ref 0], [], []⟩, 2, 4, .tuple [.ref 5], Ex.run7, by simp [Ex.h7],
    .step rfl (.here (o := .tuple [.imm 1]) rfl), ?_, trivial, by decide +kernel, ⟨rfl, by simp⟩, by decide +kernel, 5, ?_, rfl⟩
  · intro a ha; left
    simp [Obj.vals] at ha
    simp [ha, Ex.h7]
  · exact .field (p := [0, 0]) (a := 2) (v := 4) (o := .tuple [.ref 5])
      (.field (p := [0]) (a := 0) (v := 0) (o := .tuple [.ref 2]) (.root rfl) (.here (o := .tuple [.ref 2]) rfl) rfl rfl)
      (.step rfl (.here (o := .tuple [.ref 5]) rfl)) rfl rfl

/-- C33, refuted for `map`, which touches the new list only at its end: after a collection during the first call of the
block, the list is old and its first element, written without a barrier, is given back by the second collection. -/
theorem C33_refuted_map : ∃ h h1 h2 h3 : Heap, ∃ a v o, Run h ∧ Val.ref a ∈ h.roots ∧ Resolves h.mem a v ∧
    h.HoldsAt v o ∧ h.Supported o ∧ h.poke a o = some h1 ∧
    (h2 = { h1 with roots := [.ref 2, .ref 0] } ∧ [Val.ref 2, Val.ref 0] ⊆ h1.roots) ∧ h2.minor = some h3 ∧
    ∃ x, At h3.mem h3.roots [0, 0] (.ref x) ∧ h3.mem[x]? = some .free := by
  refine ⟨Ex.h3.alloc (.tuple []), ⟨[.obj (.tuple [.ref 2]), .free, .obj (.tuple [.ref 3]), .obj (.tuple [])],
    [.prot, .gone, .old, .young], [.ref 3, .ref 2, .ref 0], [], []⟩, _,
    ⟨[.obj (.tuple [.ref 2]), .free, .obj (.tuple [.ref 3]), .free], [.prot, .gone, .old, .gone], [.ref 2, .ref 0], [], []⟩,
    2, 2, .tuple [.ref 3], ?_, by simp [Ex.h3, Heap.alloc], .here (o := .tuple []) rfl, ?_, trivial, by decide +kernel,
    ⟨rfl, by simp⟩, by decide +kernel, 3, ?_, rfl⟩
  · exact .step Ex.run3 (.alloc (.tuple []) (by intro a ha; simp [Obj.vals] at ha) trivial)
  · intro a ha; left
    simp [Obj.vals] at ha
    simp [ha, Ex.h3, Heap.alloc]
  · exact .field (p := [0]) (a := 2) (v := 2) (o := .tuple [.ref 3]) (.root rfl) (.here (o := .tuple [.ref 3]) rfl) rfl rfl

/-- C32, refuted for errors: their type has no size, so only the first 16 bytes are copied. The message is gone. -/
theorem C32_refuted_error : ∃ h h' : Heap, Run h ∧ Val.ref 0 ∈ h.roots ∧
    (h.alloc (.error (.imm 0) (.ref 0) (.imm 3) (.imm 5) (.imm 0))).major = some h' ∧
    Observes h'.mem h'.roots [0] (.inr (.mk 13 [] [])) := by
  refine ⟨Ex.h0, ⟨[.obj (.tuple []), .free, .obj (.cut (.imm 0))], [.prot, .gone, .old], [.ref 2, .ref 0], [], []⟩,
    .boot Ex.boot0, by simp [Ex.h0], by decide +kernel, ?_⟩
  exact .obj (o := .cut (.imm 0)) (.root rfl) (.here (o := .cut (.imm 0)) rfl) rfl

/-- C32, refuted for the names of closures (set by every definition of a method): they are not updated. -/
theorem C32_refuted_name : ∃ h h' : Heap, Run h ∧ Val.ref 1 ∈ h.roots ∧
    (h.alloc (.closure [] (.imm 0) (.ref 1) [])).major = some h' ∧
    ∃ x, At h'.mem h'.roots [0, 1] (.ref x) ∧ h'.mem[x]? = some .free := by
  refine ⟨Ex.h0.intern [102], ⟨[.obj (.tuple []), .free, .free, .obj (.closure [] (.imm 0) (.ref 1) []), .obj (.raw [102])],
    [.prot, .gone, .gone, .old, .old], [.ref 3, .ref 4, .ref 0], [], [4]⟩, .step (.boot Ex.boot0) (.intern _),
    by simp [Heap.intern, Heap.alloc, Ex.h0], by decide +kernel, 1, ?_, rfl⟩
  exact .field (p := [0]) (a := 3) (v := 3) (o := .closure [] (.imm 0) (.ref 1) []) (.root rfl)
    (.here (o := .closure [] (.imm 0) (.ref 1) []) rfl) rfl rfl

/-! ### C34 -/

/-- C34. After a full collection the intern table holds exactly the strings that were in it and are still live. -/
theorem C34_full_partial {h : Heap} (r : Run h) : ∃ h' φ, h.major = some h' ∧
    Preserved (Live h.isMovable h.mem h.roots) h.mem h'.mem h.roots h'.roots φ ∧
    ∀ x : Nat, x ∈ h'.strings ↔ ∃ s ∈ h.strings, Live h.isMovable h.mem h.roots s ∧ φ s = x := by
  obtain ⟨m3, roots', e, F, _⟩ := r.inv.major
  refine ⟨_, image h.isMovable m3, e, F.preserved, ?_⟩
  intro x
  show x ∈ sweep h.isMovable m3 h.strings ↔ _
  rw [mem_sweep]
  constructor
  · rintro ⟨s, hs, ⟨h1, rfl⟩ | ⟨h1, h2⟩⟩
    · obtain ⟨c, hc⟩ := r.inv.strings x hs
      exact ⟨x, hs, .kept h1 (.here hc), Img.image (.inr ⟨h1, rfl⟩)⟩
    · exact ⟨s, hs, F.back s x h1 h2, Img.image (.inl ⟨h1, h2⟩)⟩
  · rintro ⟨s, hs, h1, h2⟩
    refine ⟨s, hs, ?_⟩
    by_cases hf : h.isMovable s = true
    · obtain ⟨n, hn⟩ := F.moved s h1 hf
      have := Img.image (isFrom := h.isMovable) (m := m3) (.inl ⟨hf, hn⟩)
      rw [h2] at this
      subst this
      exact .inr ⟨hf, hn⟩
    · have hf : h.isMovable s = false := by simpa using hf
      have := Img.image (isFrom := h.isMovable) (m := m3) (v := s) (.inr ⟨hf, rfl⟩)
      rw [h2] at this
      exact .inl ⟨hf, this⟩

/-- C34. After a minor collection, strings outside the birth region and strings the roots refer to directly are still in the
intern table. -/
theorem C34_minor_partial {h : Heap} (r : Run h) : ∃ h' φ, h.minor = some h' ∧
    Preserved (Live h.isYoung h.mem h.roots) h.mem h'.mem h.roots h'.roots φ ∧
    (∀ s ∈ h.strings, h.isYoung s = false ∨ Val.ref s ∈ h.roots → φ s ∈ h'.strings) ∧
    ∀ x ∈ h'.strings, ∃ s ∈ h.strings, Live h.isYoung h.mem h.roots s ∧ φ s = x := by
  obtain ⟨m1, m3, roots', e, F, K, I1, g, _⟩ := r.inv.minor
  refine ⟨_, image h.isYoung m3, e, F.preserved, ?_, ?_⟩
  · intro s hs hh
    show _ ∈ sweep h.isYoung m1 h.strings
    rw [mem_sweep]
    refine ⟨s, hs, ?_⟩
    by_cases hf : h.isYoung s = true
    · have hr := hh.resolve_left (by simp [hf])
      obtain ⟨c, hc⟩ := r.inv.strings s hs
      obtain ⟨y, gy⟩ := forall₂_mem g _ hr
      cases gy with
      | @ref _ v _ w h1 h2 h3 =>
        cases h1.unique (.here hc)
        rcases h2 with ⟨_, h2⟩ | ⟨h2, _⟩
        · rw [Img.image (.inl ⟨hf, K.copied _ _ hf h2⟩)]
          exact .inr ⟨hf, h2⟩
        · simp [hf] at h2
    · have hf : h.isYoung s = false := by simpa using hf
      exact .inl ⟨hf, Img.image (.inr ⟨hf, rfl⟩)⟩
  · intro x hx
    obtain ⟨s, hs, ⟨h1, rfl⟩ | ⟨h1, h2⟩⟩ := mem_sweep.1 hx
    · obtain ⟨c, hc⟩ := r.inv.strings x hs
      exact ⟨x, hs, .kept h1 (.here hc), Img.image (.inr ⟨h1, rfl⟩)⟩
    · have h2 := K.copied _ _ h1 h2
      exact ⟨s, hs, F.back s x h1 h2, Img.image (.inl ⟨h1, h2⟩)⟩

/-- C34, refuted for minor collections: the intern table is swept before the store list and the copies are scanned, so a
young string that only a young list refers to is removed from it, although the program can still reach the string: a
later string with the same contents is a different one. -/
theorem C34_refuted : ∃ h h' : Heap, Run h ∧ 1 ∈ h.strings ∧ At h.mem h.roots [0, 0] (.ref 1) ∧ h.minor = some h' ∧
    h'.strings = [] ∧ Observes h'.mem h'.roots [0, 0] (.inr (Obj.raw [97]).shape) := by
  refine ⟨{ (Ex.h0.intern [97]).alloc (.tuple [.ref 1]) with roots := [.ref 2, .ref 0] },
    ⟨[.obj (.tuple []), .free, .free, .obj (.tuple [.ref 4]), .obj (.raw [97])], [.prot, .gone, .gone, .old, .old],
      [.ref 3, .ref 0], [], []⟩, ?_, by simp [Heap.intern, Heap.alloc, Ex.h0], ?_, by decide +kernel, rfl, ?_⟩
  · refine .step (.step (.step (.boot Ex.boot0) (.intern [97])) (.alloc (.tuple [.ref 1]) ?_ trivial)) (.forget ?_)
    · intro a ha
      simp [Obj.vals] at ha
      simp [ha, Heap.intern, Heap.alloc, Ex.h0]
    · simp [Heap.intern, Heap.alloc, Ex.h0]
  · exact .field (p := [0]) (a := 2) (v := 2) (o := .tuple [.ref 1]) (.root rfl) (.here (o := .tuple [.ref 1]) rfl) rfl rfl
  · exact .obj (a := 4) (v := 4) (o := .raw [97])
      (.field (p := [0]) (a := 3) (v := 3) (o := .tuple [.ref 4]) (.root rfl) (.here (o := .tuple [.ref 4]) rfl) rfl rfl)
      (.here (o := .raw [97]) rfl) rfl

/-! ### C36 -/

/-- A step other than a collection. -/
def Quiet (h h' : Heap) : Prop := Step h h' ∧ h.minor ≠ some h' ∧ h.major ≠ some h'

/-- References keep meaning the same object, and different objects stay different, in any step of the program itself. -/
theorem step_alias {h h' : Heap} (r : Run h) (s : Step h h') (q : h.minor ≠ some h') (q' : h.major ≠ some h') {a b v w}
    (ha : Resolves h.mem a v) (hb : Resolves h.mem b w) :
    ∃ v' w', Resolves h'.mem a v' ∧ Resolves h'.mem b w' ∧ (v = w ↔ v' = w') := by
  cases s with
  | alloc o => exact ⟨v, w, ha.append _, hb.append _, Iff.rfl⟩
  | intern chars => exact ⟨v, w, ha.append _, hb.append _, Iff.rfl⟩
  | load => exact ⟨v, w, ha, hb, Iff.rfl⟩
  | forget => exact ⟨v, w, ha, hb, Iff.rfl⟩
  | @write _ x y o hx hr hv ho hs hd e =>
    obtain ⟨h1, e1, rfl⟩ := Option.map_eq_some_iff.1 e
    obtain ⟨o0, ho0, rfl⟩ := poke_eq hr e1
    rw [(touch_mem _ _).1]
    exact ⟨v, w, ha.set_obj ho0, hb.set_obj ho0, Iff.rfl⟩
  | @realloc _ x y o hx hr hv ho hs e =>
    obtain ⟨_, h2, h3⟩ := r.inv.realloc hr hv ho hs e
    have lt : ∀ {c z}, Resolves h.mem c z → z ≠ h.mem.length := by
      intro c z hz
      obtain ⟨o, ho⟩ := hz.obj
      exact Nat.ne_of_lt (List.getElem?_eq_some_iff.1 ho).1
    by_cases h1 : v = y <;> by_cases h4 : w = y
    · subst h1; subst h4; exact ⟨_, _, h3 _ ha, h3 _ hb, by simp⟩
    · subst h1; exact ⟨_, w, h3 _ ha, h2 _ _ hb h4, ⟨fun h => absurd h.symm h4, fun h => absurd h.symm (lt hb)⟩⟩
    · subst h4; exact ⟨v, _, h2 _ _ ha h1, h3 _ hb, ⟨fun h => absurd h h1, fun h => absurd h (lt ha)⟩⟩
    · exact ⟨v, w, h2 _ _ ha h1, h2 _ _ hb h4, Iff.rfl⟩
  | minor e => exact absurd e q
  | major e => exact absurd e q'

theorem quiet_run {h h' : Heap} (r : Run h) (s : Relation.ReflTransGen Quiet h h') : Run h' := by
  induction s with
  | refl => exact r
  | tail _ s ih => exact .step ih s.1

/-- C36. Between collections, after any number of allocations, writes and reallocations, every reference ever handed out
still resolves to an object; two references to the same object still are, and references to different objects too. (What
a collection does to references is C32 and C33.) -/
theorem C36_references {h h' : Heap} (r : Run h) (s : Relation.ReflTransGen Quiet h h') {a b v w}
    (ha : Resolves h.mem a v) (hb : Resolves h.mem b w) :
    ∃ v' w', Resolves h'.mem a v' ∧ Resolves h'.mem b w' ∧ (v = w ↔ v' = w') := by
  induction s with
  | refl => exact ⟨v, w, ha, hb, Iff.rfl⟩
  | tail s1 s2 ih =>
    obtain ⟨v1, w1, h1, h2, h3⟩ := ih
    obtain ⟨v2, w2, g1, g2, g3⟩ := step_alias (quiet_run r s1) s2.1 s2.2.1 s2.2.2 h1 h2
    exact ⟨v2, w2, g1, g2, h3.trans g3⟩

/-- C36. What is written through one reference, with or without reallocation, is read through every reference to the object;
all other objects are unchanged. -/
theorem C36_contents {h h' : Heap} (r : Run h) {a v o} (hr : Resolves h.mem a v)
    (hw : h.write a o = some h' ∨ (h.realloc a o = some h' ∧ v ∉ h.strings ∧ h.HoldsAt v o ∧ h.Supported o)) :
    (∀ b, Resolves h.mem b v → ∃ x, Resolves h'.mem b x ∧ h'.mem[x]? = some (.obj o)) ∧
    (∀ b w, Resolves h.mem b w → w ≠ v → Resolves h'.mem b w ∧ h'.mem[w]? = h.mem[w]?) := by
  rcases hw with e | ⟨e, hv, ho, hs⟩
  · obtain ⟨h1, e1, rfl⟩ := Option.map_eq_some_iff.1 e
    obtain ⟨o0, ho0, rfl⟩ := poke_eq hr e1
    rw [(touch_mem _ _).1]
    have lt := (List.getElem?_eq_some_iff.1 ho0).1
    refine ⟨fun b hb => ⟨v, hb.set_obj ho0, List.getElem?_set_self lt⟩, fun b w hb hne => ⟨hb.set_obj ho0, ?_⟩⟩
    exact List.getElem?_set_ne (Ne.symm hne)
  · obtain ⟨_, h2, h3⟩ := r.inv.realloc hr hv ho hs e
    obtain ⟨o0, ho0, lt, rfl⟩ := realloc_eq hr e
    refine ⟨fun b hb => ⟨_, h3 b hb, ?_⟩, fun b w hb hne => ⟨h2 b w hb hne, ?_⟩⟩
    · rw [(touch_mem _ _).1]
      show (List.set (h.mem ++ [Cell.obj o]) v (.fwd h.mem.length))[h.mem.length]? = _
      rw [List.getElem?_set_ne (Nat.ne_of_lt lt)]
      exact append_last _ _
    · rw [(touch_mem _ _).1]
      obtain ⟨o1, ho1⟩ := hb.obj
      show (List.set (h.mem ++ [Cell.obj o]) v (.fwd h.mem.length))[w]? = _
      rw [List.getElem?_set_ne (Ne.symm hne), List.getElem?_append_left (List.getElem?_eq_some_iff.1 ho1).1]

/-- Reallocation succeeds for every reference the program holds. -/
theorem C36_total {h : Heap} (r : Run h) {a} (ha : Val.ref a ∈ h.roots) (o : Obj) :
    (h.realloc a o).isSome = true ∧ (h.write a o).isSome = true := by
  obtain ⟨v, hv⟩ := r.inv.roots a ha
  obtain ⟨o0, ho0⟩ := hv.obj
  simp [Heap.realloc, Heap.write, Heap.poke, hv.stop.fwd, ho0]

/-- The first reallocation of the example: both references to the list lead to the new storage. -/
example : Run Ex.h3 ∧ Ex.h3.realloc 2 (.tuple [.imm 1]) = some Ex.h4 ∧ Resolves Ex.h3.mem 2 2 :=
  ⟨Ex.run3, by decide +kernel, .here (o := .tuple []) rfl⟩

/-! ### C50 -/

/-- C50. Turning a list into a table, through a reference to its storage, turns it for every reference to it. -/
theorem C50_cast_partial {h : Heap} (r : Run h) {a t o o'} (ha : h.mem[a]? = some (.obj o)) (ht : h.mem[t]? = some (.obj o'))
    (hne : t ≠ a) : ∀ b, Resolves h.mem b a → Resolves (h.become a t).mem b t := by
  intro b hb
  have lt : (a : Nat) < h.mem.length := (List.getElem?_eq_some_iff.1 ha).1
  rw [Heap.become, (touch_mem _ _).1]
  show Resolves (h.mem.set a (.fwd t)) b t
  have ne : ∀ x : Nat, x ≠ a → (h.mem.set a (.fwd t))[x]? = h.mem[x]? := fun x hx => List.getElem?_set_ne (Ne.symm hx)
  have key : ∀ b v, Resolves h.mem b v → v = a → Resolves (h.mem.set a (.fwd t)) b t := by
    intro b v hv
    induction hv with
    | here e => rintro rfl; exact .step (List.getElem?_set_self lt) (.here ((ne t hne).trans ht))
    | @step x y w e _ ih =>
      intro hw
      have : x ≠ a := by rintro rfl; rw [ha] at e; simp at e
      exact .step ((ne x this).trans e) (ih hw)
  exact key b a hb rfl

/-- C50, refuted: through a forwarding pointer, only that pointer is redirected. Here the second list of the example is
turned into a table through the reference kept in the first; the reference on the stack still sees the list. -/
theorem C50_refuted : ∃ h : Heap, Run h ∧ ∃ a b v t, Resolves h.mem a v ∧ Resolves h.mem b v ∧
    h.mem[v]? = some (.obj (.tuple [.imm 1])) ∧ h.mem[t]? = some (.obj (.table [] [some (.imm 1, .imm 1)])) ∧
    Resolves (h.become a t).mem a t ∧ Resolves (h.become a t).mem b v := by
  refine ⟨Ex.h6.alloc (.table [] [some (.imm 1, .imm 1)]), ?_, 2, 4, 4, 5, .step rfl (.here (o := .tuple [.imm 1]) rfl),
    .here (o := .tuple [.imm 1]) rfl, rfl, rfl,
    .step rfl (.here (o := .table [] [some (.imm 1, .imm 1)]) rfl), .here (o := .tuple [.imm 1]) rfl⟩
  exact .step Ex.run6 (.alloc _ (by intro a ha; simp [Obj.vals, entryRefs] at ha) trivial)

end Potion.Gc
