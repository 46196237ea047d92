import Verif.Spec.Heap
import Verif.Proof.Gc
/-! The invariant of the heap. -/
namespace Potion.Gc

structure HInv (h : Heap) : Prop where
  len : h.space.length = h.mem.length
  fresh : ∀ (a n : Nat), h.mem[a]? ≠ some (.copied n)
  gone : ∀ a : Nat, h.mem[a]? = some .free ↔ h.space[a]? = some .gone
  closed : ∀ (a : Nat) c b, h.mem[a]? = some c → Val.ref b ∈ c.vals → ∃ v, Resolves h.mem b v
  roots : ∀ b, Val.ref b ∈ h.roots → ∃ v, Resolves h.mem b v
  young : ∀ a b : Nat, h.space[a]? = some .young → h.mem[a]? = some (.fwd b) → h.space[b]? = some .young
  old : ∀ a b : Nat, h.space[a]? = some .old → h.mem[a]? = some (.fwd b) →
    h.space[b]? = some .young ∨ h.space[b]? = some .old
  supp : ∀ (a : Nat) o, h.mem[a]? = some (.obj o) → h.Supported o
  store : ∀ a : Nat, a ∈ h.store → h.space[a]? = some .prot ∨ h.space[a]? = some .old
  barrier : ∀ (a : Nat) c b, h.space[a]? ≠ some .young → h.mem[a]? = some c → a ∉ h.store → Val.ref b ∈ c.vals →
    h.space[b]? ≠ some .young
  strings : ∀ s : Nat, s ∈ h.strings → ∃ chars, h.mem[s]? = some (.obj (.raw chars))

theorem isYoung_iff {h : Heap} {a : Nat} : h.isYoung a = true ↔ h.space[a]? = some .young := by simp [Heap.isYoung]
theorem isYoung_not {h : Heap} {a : Nat} : h.isYoung a = false ↔ h.space[a]? ≠ some .young := by
  rw [← Bool.not_eq_true, isYoung_iff]
theorem isMovable_iff {h : Heap} {a : Nat} :
    h.isMovable a = true ↔ h.space[a]? = some .young ∨ h.space[a]? = some .old := by simp [Heap.isMovable]
theorem isMovable_not {h : Heap} {a : Nat} :
    h.isMovable a = false ↔ ¬ (h.space[a]? = some .young ∨ h.space[a]? = some .old) := by
  rw [← Bool.not_eq_true, isMovable_iff]

theorem supp_plain {h : Heap} {o} (I : HInv h) (s : h.Supported o) {isFrom : Addr → Bool}
    (hp : ∀ a : Nat, h.space[a]? = some .prot → isFrom a = false) : Plain isFrom h.mem o := by
  cases o <;> first | exact s | trivial | skip
  case closure =>
    intro a e
    obtain ⟨h1, h2⟩ := s a e
    obtain ⟨c, hc⟩ := I.strings a h2
    exact ⟨hp a h1, _, hc⟩
  case proto =>
    intro a e
    obtain ⟨h1, h2⟩ := s a e
    obtain ⟨c, hc⟩ := I.strings a h2
    exact ⟨hp a h1, _, hc⟩

theorem Resolves.lt {m a v} (h : Resolves m a v) : a < m.length := by
  cases h with
  | here e => exact (List.getElem?_eq_some_iff.1 e).1
  | step e _ => exact (List.getElem?_eq_some_iff.1 e).1

theorem HInv.wfMinor {h : Heap} (I : HInv h) : WF h.isYoung h.mem h.roots h.store := by
  refine ⟨?_, I.fresh, I.closed, I.roots, ?_, ?_, ?_, ?_⟩
  · intro a ha
    rw [← I.len]
    exact (List.getElem?_eq_some_iff.1 (isYoung_iff.1 ha)).1
  · intro a b ha e
    exact isYoung_iff.2 (I.young a b (isYoung_iff.1 ha) e)
  · intro a o e
    exact supp_plain I (I.supp a o e) (fun x hx => isYoung_not.2 (by rw [hx]; simp))
  · intro a ha
    have hs := I.store a ha
    refine ⟨isYoung_not.2 ?_, ?_, ?_⟩
    · rcases hs with h | h <;> rw [h] <;> simp
    · rw [← I.len]
      rcases hs with h | h <;> exact (List.getElem?_eq_some_iff.1 h).1
    · intro e
      rw [I.gone a] at e
      rcases hs with h | h <;> rw [h] at e <;> simp at e
  · intro a c b ha e hs hb
    exact isYoung_not.2 (I.barrier a c b (isYoung_not.1 ha) e hs hb)

theorem space_cases {h : Heap} (I : HInv h) {a : Nat} (lt : a < h.mem.length) : ∃ s, h.space[a]? = some s :=
  ⟨h.space[a]'(I.len ▸ lt), List.getElem?_eq_some_iff.2 ⟨I.len ▸ lt, rfl⟩⟩

theorem HInv.wfMajor {h : Heap} (I : HInv h) : WF h.isMovable h.mem h.roots h.prot := by
  refine ⟨?_, I.fresh, I.closed, I.roots, ?_, ?_, ?_, ?_⟩
  · intro a ha
    rw [← I.len]
    rcases isMovable_iff.1 ha with h | h <;> exact (List.getElem?_eq_some_iff.1 h).1
  · intro a b ha e
    rcases isMovable_iff.1 ha with h | h
    · exact isMovable_iff.2 (.inl (I.young a b h e))
    · exact isMovable_iff.2 (I.old a b h e)
  · intro a o e
    exact supp_plain I (I.supp a o e) (fun x hx => isMovable_not.2 (by rw [hx]; simp))
  · intro a ha
    obtain ⟨h1, h2⟩ := List.mem_filter.1 ha
    have h2 : h.space[a]? = some .prot := by simpa using h2
    refine ⟨isMovable_not.2 (by rw [h2]; simp), List.mem_range.1 h1, ?_⟩
    intro e
    rw [I.gone a, h2] at e
    simp at e
  · intro a c b ha e hs hb
    have lt := (List.getElem?_eq_some_iff.1 e).1
    obtain ⟨s, hsp⟩ := space_cases I lt
    have ha := isMovable_not.1 ha
    cases s with
    | young => exact absurd (.inl hsp) ha
    | old => exact absurd (.inr hsp) ha
    | prot => exact absurd (List.mem_filter.2 ⟨List.mem_range.2 lt, by simpa using hsp⟩) hs
    | gone =>
      rw [← I.gone a, e] at hsp
      obtain rfl := by simpa using hsp
      simp [Cell.vals] at hb

/-! ### Collections keep it -/

theorem Supported.put {h h' : Heap} {o : Obj} (s : h.Supported o) (vs : List Val)
    (hk : ∀ a : Nat, h.space[a]? = some .prot → a ∈ h.strings → h'.space[a]? = some .prot ∧ a ∈ h'.strings) :
    h'.Supported (o.put vs) := by
  have base : h'.Supported o := by
    cases o <;> first | exact s | trivial | skip
    case closure => exact fun a e => hk a (s a e).1 (s a e).2
    case proto => exact fun a e => hk a (s a e).1 (s a e).2
  unfold Obj.put
  split <;> first | trivial | exact base | skip
  all_goals exact fun a e => base a e

theorem raw_put (i : List Nat) (vs : List Val) : (Obj.raw i).put vs = .raw i := by
  unfold Obj.put; rfl

theorem mem_sweep {isFrom : Addr → Bool} {m : Mem} {x : Nat} : ∀ {l : List Addr}, x ∈ sweep isFrom m l ↔
    ∃ s ∈ l, (isFrom s = false ∧ x = s) ∨ (isFrom s = true ∧ m[s]? = some (.copied x))
  | [] => by simp [sweep]
  | v :: l => by
    have ih := mem_sweep (isFrom := isFrom) (m := m) (x := x) (l := l)
    simp only [sweep, List.mem_cons]
    by_cases hv : isFrom v = true
    · rw [if_pos hv]
      split
      · rename_i n hn
        rw [List.mem_cons, ih]
        constructor
        · rintro (rfl | ⟨s, hs, h⟩)
          · exact ⟨v, .inl rfl, .inr ⟨hv, hn⟩⟩
          · exact ⟨s, .inr hs, h⟩
        · rintro ⟨s, rfl | hs, h⟩
          · rcases h with ⟨h, _⟩ | ⟨_, h⟩
            · simp [hv] at h
            · rw [hn] at h; exact .inl (by simpa using h.symm)
          · exact .inr ⟨s, hs, h⟩
      · rename_i hn
        rw [ih]
        constructor
        · rintro ⟨s, hs, h⟩; exact ⟨s, .inr hs, h⟩
        · rintro ⟨s, rfl | hs, h⟩
          · rcases h with ⟨h, _⟩ | ⟨_, h⟩
            · simp [hv] at h
            · exact absurd h (hn _)
          · exact ⟨s, hs, h⟩
    · rw [if_neg hv, List.mem_cons, ih]
      constructor
      · rintro (rfl | ⟨s, hs, h⟩)
        · exact ⟨x, .inl rfl, .inl ⟨by simpa using hv, rfl⟩⟩
        · exact ⟨s, .inr hs, h⟩
      · rintro ⟨s, rfl | hs, h⟩
        · rcases h with ⟨_, h⟩ | ⟨h, _⟩
          · exact .inl h
          · simp [h] at hv
        · exact .inr ⟨s, hs, h⟩

/-- The heap after a collection, given the invariant of the collector. `mS` is the memory the intern table was swept in. -/
theorem HInv.after {h : Heap} (I : HInv h) {isFrom : Addr → Bool} {S : List Addr} {m mS : Mem} {roots' : List Val}
    (wf : WF isFrom h.mem h.roots S) (hyoung : ∀ a : Nat, h.space[a]? = some .young → isFrom a = true)
    (hprot : ∀ a : Nat, h.space[a]? = some .prot → isFrom a = false)
    (hgone : ∀ a : Nat, h.space[a]? = some .gone → isFrom a = false)
    (J : Inv isFrom h.mem h.roots (fun x => x ∈ S ∨ h.mem.length ≤ x ∧ x < m.length) m)
    (hr : List.Forall₂ (Good isFrom h.mem m) h.roots roots') (K : Keep isFrom mS m) :
    HInv (h.after isFrom ⟨release isFrom m, roots', sweep isFrom mS h.strings⟩) := by
  have F := J.finish wf hr
  have hlen : (release isFrom m).length = m.length := by simp [release]
  -- spaces
  have spOld : ∀ a : Nat, a < h.mem.length →
      (h.after isFrom ⟨release isFrom m, roots', sweep isFrom mS h.strings⟩).space[a]? =
        (h.space[a]?).map fun s => if isFrom a then .gone else s := by
    intro a lt
    simp only [Heap.after]
    rw [List.getElem?_append_left (by simpa [I.len] using lt)]
    simp
  have spNew : ∀ a : Nat, h.mem.length ≤ a → a < m.length →
      (h.after isFrom ⟨release isFrom m, roots', sweep isFrom mS h.strings⟩).space[a]? = some .old := by
    intro a h1 h2
    simp only [Heap.after]
    rw [List.getElem?_append_right (by simpa [I.len] using h1), List.getElem?_replicate, if_pos]
    simp [I.len, release]
    omega
  have noYoung : ∀ a : Nat, (h.after isFrom ⟨release isFrom m, roots', sweep isFrom mS h.strings⟩).space[a]? ≠
      some .young := by
    intro a e
    by_cases lt : a < h.mem.length
    · rw [spOld a lt] at e
      obtain ⟨s, hs⟩ := space_cases I lt
      rw [hs] at e
      simp only [Option.map_some, Option.some.injEq] at e
      split at e
      · cases e
      · rename_i hf
        subst e
        exact hf (hyoung a hs)
    · by_cases lt' : a < m.length
      · rw [spNew a (by omega) lt'] at e; simp at e
      · have : (h.after isFrom ⟨release isFrom m, roots', sweep isFrom mS h.strings⟩).space.length = m.length := by
          simp [Heap.after, I.len, release]; have := J.len; omega
        rw [List.getElem?_eq_none (by omega)] at e
        simp at e
  -- surviving cells
  have cell : ∀ (a : Nat) c, isFrom a = false → m[a]? = some c →
      (∀ n, c ≠ .copied n) ∧ (∀ b, Val.ref b ∈ c.vals → ∃ w, Survives isFrom m b w) ∧
      (∀ o, c = .obj o → ∃ (x : Nat) (o0 : Obj) (vs : List Val), h.mem[x]? = some (.obj o0) ∧ o = o0.put vs) ∧
      (c = .free → a < h.mem.length ∧ h.mem[a]? = some .free) ∧
      (a < h.mem.length → ∃ c0, h.mem[a]? = some c0 ∧ ((∃ b, c0 = .fwd b) ↔ ∃ b, c = .fwd b) ∧ (c0 = .free → c = .free) ∧
        (∀ b, c = .fwd b → (c0 = .fwd b ∧ isFrom b = false) ∨ h.mem.length ≤ b)) ∧
      (h.mem.length ≤ a → ∃ o, c = .obj o) := by
    intro a c ha hc
    have lt := (List.getElem?_eq_some_iff.1 hc).1
    have good_surv : ∀ {o : Obj} {vs : List Val}, List.Forall₂ (Good isFrom h.mem m) o.refs vs →
        (∃ x : Nat, h.mem[x]? = some (.obj o)) → ∀ b, Val.ref b ∈ (o.put vs).vals → ∃ w, Survives isFrom m b w := by
      intro o vs g hx b hb
      obtain ⟨x, hx⟩ := hx
      have := ((wf.plain x o hx).put (R := fun _ r' => ∀ b, r' = .ref b → ∃ w, Survives isFrom m b w)
        (g.imp fun r r' gg b e => by
          subst e
          cases gg with
          | ref _ _ g3 => exact ⟨_, g3⟩) (by intro w b e; cases e)
        (by
          rintro a ha ⟨o', ho'⟩ b e
          cases e
          obtain ⟨w, _, h2⟩ := J.settled wf (.here ho') ha
          exact ⟨w, h2⟩)).2
      have : ∀ {l l' : List Val}, List.Forall₂ (fun _ r' => ∀ b, r' = Val.ref b → ∃ w, Survives isFrom m b w) l l' →
          ∀ b, Val.ref b ∈ l' → ∃ w, Survives isFrom m b w := by
        intro l l' hh
        induction hh with
        | nil => intro b hb; simp at hb
        | cons h1 _ ih =>
          intro b hb
          rcases List.mem_cons.1 hb with e | hb
          · exact h1 b e.symm
          · exact ih b hb
      exact this (by assumption) b hb
    by_cases h0 : a < h.mem.length
    · by_cases hs : a ∈ S
      · obtain ⟨c0, c', h1, h2, h3⟩ := J.old a h0 ha (.inl hs)
        rw [hc] at h2
        obtain rfl := by simpa using h2
        cases h3 with
        | @obj o vs g =>
          refine ⟨by simp, ?_, ?_, by simp, ?_, by intro; omega⟩
          · exact good_surv g ⟨a, h1⟩
          · intro o' e; exact ⟨a, o, vs, h1, by simpa using e.symm⟩
          · intro _; exact ⟨_, h1, by simp, by simp, by simp⟩
        | @fwd b b' g gb =>
          refine ⟨by simp, ?_, by simp, by simp, ?_, by intro; omega⟩
          · intro x hx
            simp only [Cell.vals, List.mem_singleton, Val.ref.injEq] at hx
            subst hx
            cases g with
            | ref _ _ g3 => exact ⟨_, g3⟩
          · intro _
            refine ⟨_, h1, by simp, by simp, ?_⟩
            intro x e
            obtain rfl := by simpa using e
            rcases gb with rfl | gb
            · left
              refine ⟨rfl, ?_⟩
              cases g with
              | ref _ _ g3 => cases g3 with
                | here hh _ => exact hh
                | step hh _ _ => exact hh
            · exact .inr gb
      · have e := J.todo a h0 ha (by
          rintro (hh | ⟨hh, _⟩)
          · exact hs hh
          · omega)
        rw [hc] at e
        refine ⟨?_, ?_, ?_, ?_, ?_, by intro; omega⟩
        · rintro n rfl; exact wf.fresh a n e.symm
        · intro b hb
          obtain ⟨v, hv⟩ := wf.closed a c b e.symm hb
          obtain ⟨w, _, h2⟩ := J.settled wf hv (wf.barrier a c b ha e.symm hs hb)
          exact ⟨w, h2⟩
        · rintro o rfl; exact ⟨a, o, o.refs, e.symm, (Obj.put_self o).symm⟩
        · rintro rfl; exact ⟨h0, e.symm⟩
        · intro _
          refine ⟨c, e.symm, Iff.rfl, id, ?_⟩
          rintro b rfl
          exact .inl ⟨rfl, wf.barrier a _ b ha e.symm hs (by simp [Cell.vals])⟩
    · obtain ⟨v, o, h1, h2, h3, h4, h5, h6⟩ := J.new a (by omega) lt
      obtain ⟨vs, e1, e2⟩ := h6 (.inr ⟨by omega, lt⟩)
      rw [hc] at e1
      obtain rfl := by simpa using e1
      refine ⟨by simp, good_surv e2 ⟨v, h2⟩, ?_, by simp, by intro; omega, fun _ => ⟨_, rfl⟩⟩
      intro o' e; exact ⟨v, o, vs, h2, by simpa using e.symm⟩
  have relCell : ∀ (a : Nat) c, (release isFrom m)[a]? = some c → (isFrom a = true ∧ c = .free ∧ a < h.mem.length) ∨
      (isFrom a = false ∧ m[a]? = some c) := by
    intro a c e
    by_cases hf : isFrom a = true
    · rw [release_get] at e
      obtain ⟨c', _, h2⟩ := Option.map_eq_some_iff.1 e
      simp [hf] at h2
      exact .inl ⟨hf, h2.symm, wf.inMem a hf⟩
    · have hf : isFrom a = false := by simpa using hf
      rw [release_keep hf] at e
      exact .inr ⟨hf, e⟩
  have keepStr : ∀ a : Nat, h.space[a]? = some .prot → a ∈ h.strings →
      (h.after isFrom ⟨release isFrom m, roots', sweep isFrom mS h.strings⟩).space[a]? = some .prot ∧
      a ∈ (h.after isFrom ⟨release isFrom m, roots', sweep isFrom mS h.strings⟩).strings := by
    intro a h1 h2
    have lt : a < h.mem.length := by rw [← I.len]; exact (List.getElem?_eq_some_iff.1 h1).1
    refine ⟨by rw [spOld a lt, h1]; simp [hprot a h1], mem_sweep.2 ⟨a, h2, .inl ⟨hprot a h1, rfl⟩⟩⟩
  refine ⟨?_, ?_, ?_, ?_, ?_, fun a b e => absurd e (noYoung a), ?_, ?_, ?_, fun _ _ b _ _ _ _ => noYoung b, ?_⟩
  · simp [Heap.after, I.len, release]; have := J.len; omega
  · intro a n e
    rcases relCell a _ e with ⟨_, h, _⟩ | ⟨h1, h2⟩
    · cases h
    · exact (cell a _ h1 h2).1 n rfl
  · intro a
    constructor
    · intro e
      rcases relCell a _ e with ⟨h1, _, h3⟩ | ⟨h1, h2⟩
      · obtain ⟨s, hs⟩ := space_cases I h3
        rw [spOld a h3, hs]; simp [h1]
      · obtain ⟨h3, h4⟩ := (cell a _ h1 h2).2.2.2.1 rfl
        rw [spOld a h3, (I.gone a).1 h4]; simp [h1]
    · intro e
      by_cases lt : a < h.mem.length
      · rw [spOld a lt] at e
        obtain ⟨s, hs⟩ := space_cases I lt
        have ltm : a < m.length := lt_of_lt_of_le lt J.len
        obtain ⟨c, hc⟩ : ∃ c, m[a]? = some c := ⟨m[a], List.getElem?_eq_some_iff.2 ⟨ltm, rfl⟩⟩
        by_cases hf : isFrom a = true
        · show (release isFrom m)[a]? = _
          rw [release_get, hc]; simp [hf]
        · have hf : isFrom a = false := by simpa using hf
          rw [hs] at e
          simp [hf] at e
          subst e
          have hfree := (I.gone a).2 hs
          obtain ⟨c0, g1, _, g3, _⟩ := (cell a c hf hc).2.2.2.2.1 lt
          rw [hfree] at g1
          obtain rfl := by simpa using g1
          show (release isFrom m)[a]? = _
          rw [release_keep hf, hc, g3 rfl]
      · by_cases lt' : a < m.length
        · rw [spNew a (by omega) lt'] at e; simp at e
        · have : (h.after isFrom ⟨release isFrom m, roots', sweep isFrom mS h.strings⟩).space.length = m.length := by
            simp [Heap.after, I.len, release]; have := J.len; omega
          rw [List.getElem?_eq_none (by omega)] at e
          simp at e
  · intro a c b e hb
    rcases relCell a _ e with ⟨_, h, _⟩ | ⟨h1, h2⟩
    · subst h; simp [Cell.vals] at hb
    · obtain ⟨w, hw⟩ := (cell a _ h1 h2).2.1 b hb
      exact ⟨w, hw.release⟩
  · intro b hb
    have : ∀ {l l' : List Val}, List.Forall₂ (Good isFrom h.mem m) l l' →
        ∀ b, Val.ref b ∈ l' → ∃ w, Survives isFrom m b w := by
      intro l l' hh
      induction hh with
      | nil => intro b hb; simp at hb
      | cons h1 _ ih =>
        intro b hb
        rcases List.mem_cons.1 hb with e | hb
        · subst e
          cases h1 with
          | ref _ _ g => exact ⟨_, g⟩
        · exact ih b hb
    obtain ⟨w, hw⟩ := this hr b hb
    exact ⟨w, hw.release⟩
  · intro a b e e'
    right
    rcases relCell a _ e' with ⟨_, h, _⟩ | ⟨h1, h2⟩
    · cases h
    · by_cases lt : a < h.mem.length
      · obtain ⟨c0, g1, g2, _, g4⟩ := (cell a _ h1 h2).2.2.2.2.1 lt
        rcases g4 b rfl with ⟨rfl, hb⟩ | hb
        · obtain ⟨w, hw⟩ := wf.closed a _ b g1 (by simp [Cell.vals])
          have ltb : (b : Nat) < h.mem.length := hw.lt
          rw [spOld a lt] at e
          obtain ⟨s, hs⟩ := space_cases I lt
          rw [hs] at e
          simp [h1] at e
          subst e
          rcases I.old a b hs g1 with g | g
          · have := hyoung b g
            simp [hb] at this
          · rw [spOld b ltb, g]; simp [hb]
        · obtain ⟨w, hw⟩ := (cell a _ h1 h2).2.1 b (by simp [Cell.vals])
          have : (b : Nat) < m.length := by
            have := hw.release.lt
            rwa [hlen] at this
          exact spNew b hb this
      · obtain ⟨o, ho⟩ := (cell a _ h1 h2).2.2.2.2.2 (by omega)
        cases ho
  · intro a o e
    rcases relCell a _ e with ⟨_, h, _⟩ | ⟨h1, h2⟩
    · cases h
    · obtain ⟨x, o0, vs, g1, rfl⟩ := (cell a _ h1 h2).2.2.1 o rfl
      exact Supported.put (I.supp x o0 g1) vs keepStr
  · intro a ha; exact absurd ha (by simp [Heap.after])
  · intro s hs
    obtain ⟨t, ht, hh⟩ := mem_sweep.1 hs
    obtain ⟨chars, hc⟩ := I.strings t ht
    refine ⟨chars, ?_⟩
    show (release isFrom m)[s]? = _
    rcases hh with ⟨h1, rfl⟩ | ⟨h1, h2⟩
    · have lt := (List.getElem?_eq_some_iff.1 hc).1
      rw [release_keep h1]
      by_cases hS : s ∈ S
      · obtain ⟨c0, c', g1, g2, g3⟩ := J.old s lt h1 (.inl hS)
        rw [hc] at g1
        cases Option.some.inj g1
        cases g3 with
        | obj _ => rw [g2, raw_put]
      · rw [J.todo s lt h1 (by
          rintro (hh | ⟨hh, _⟩)
          · exact hS hh
          · omega), hc]
    · have h2 := K.copied t s h1 h2
      rcases J.evac t h1 with e | ⟨n, o, g1, g2, g3, g4⟩
      · rw [h2] at e; exact absurd e.symm (wf.fresh t s)
      · rw [h2] at g2
        obtain rfl := by simpa using g2
        obtain ⟨v', o'', k1, k2, k3, _, _, k6⟩ := J.new s g3 g4
        have := J.inj t v' s h1 k1 h2 k3
        subst this
        rw [hc] at k2
        obtain rfl := by simpa using k2
        obtain ⟨vs, e1, _⟩ := k6 (.inr ⟨g3, g4⟩)
        rw [release_keep (wf.out g3), e1, raw_put]


/-- A minor collection of a heap that satisfies the invariant. -/
theorem HInv.minor {h : Heap} (I : HInv h) : ∃ m1 m3 roots', 
    h.minor = some (h.after h.isYoung ⟨release h.isYoung m3, roots', sweep h.isYoung m1 h.strings⟩) ∧
    Finished h.isYoung h.mem h.roots roots' m3 ∧ Keep h.isYoung m1 m3 ∧
    Inv h.isYoung h.mem h.roots (fun _ => False) m1 ∧ List.Forall₂ (Good h.isYoung h.mem m1) h.roots roots' ∧
    HInv (h.after h.isYoung ⟨release h.isYoung m3, roots', sweep h.isYoung m1 h.strings⟩) := by
  obtain ⟨m1, roots', m2, m3, e1, e2, e3, F, K, I1, g1, J, g3⟩ := collect I.wfMinor (h.mem.length + 1) (by omega)
  refine ⟨m1, m3, roots', by simp [Heap.minor, Gc.minor, e1, e2, e3], F, K, I1, g1, ?_⟩
  exact I.after I.wfMinor (fun a h => isYoung_iff.2 h) (fun a h => isYoung_not.2 (by rw [h]; simp))
    (fun a h => isYoung_not.2 (by rw [h]; simp)) J g3 K

theorem HInv.major {h : Heap} (I : HInv h) : ∃ m3 roots',
    h.major = some (h.after h.isMovable ⟨release h.isMovable m3, roots', sweep h.isMovable m3 h.strings⟩) ∧
    Finished h.isMovable h.mem h.roots roots' m3 ∧
    HInv (h.after h.isMovable ⟨release h.isMovable m3, roots', sweep h.isMovable m3 h.strings⟩) := by
  obtain ⟨m1, roots', m2, m3, e1, e2, e3, F, K, I1, g1, J, g3⟩ := collect I.wfMajor (h.mem.length + 1) (by omega)
  refine ⟨m3, roots', by simp [Heap.major, Gc.major, e1, e2, e3], F, ?_⟩
  exact I.after I.wfMajor (fun a h => isMovable_iff.2 (.inl h)) (fun a h => isMovable_not.2 (by rw [h]; simp))
    (fun a h => isMovable_not.2 (by rw [h]; simp)) J g3 (.refl m3)

/-! ### So do the program's own steps -/

theorem Resolves.mono {m m' : Mem} {a v} (h : Resolves m a v)
    (hf : ∀ x b : Nat, m[x]? = some (.fwd b) → m'[x]? = some (.fwd b))
    (ho : ∀ (x : Nat) o, m[x]? = some (.obj o) → ∃ o', m'[x]? = some (.obj o')) : Resolves m' a v := by
  induction h with
  | here e => obtain ⟨o', e'⟩ := ho _ _ e; exact .here e'
  | step e _ ih => exact .step (hf _ _ e) ih

theorem Resolves.append {m : Mem} {a v} (h : Resolves m a v) (l : Mem) : Resolves (m ++ l) a v := by
  refine h.mono (fun x b e => ?_) (fun x o e => ⟨o, ?_⟩)
  · rw [List.getElem?_append_left (List.getElem?_eq_some_iff.1 e).1]; exact e
  · rw [List.getElem?_append_left (List.getElem?_eq_some_iff.1 e).1]; exact e

theorem Supported.mono {h h' : Heap} {o : Obj} (s : h.Supported o)
    (hk : ∀ a : Nat, h.space[a]? = some .prot → a ∈ h.strings → h'.space[a]? = some .prot ∧ a ∈ h'.strings) :
    h'.Supported o := by
  have := Supported.put s o.refs hk
  rwa [Obj.put_self] at this

theorem get_append {α} {l : List α} {x c : α} {a : Nat} (h : (l ++ [x])[a]? = some c) :
    (a < l.length ∧ l[a]? = some c) ∨ (a = l.length ∧ c = x) := by
  by_cases lt : a < l.length
  · rw [List.getElem?_append_left lt] at h; exact .inl ⟨lt, h⟩
  · rw [List.getElem?_append_right (by omega)] at h
    obtain ⟨h1, h2⟩ := List.getElem?_eq_some_iff.1 h
    simp at h1
    refine .inr ⟨by omega, ?_⟩
    simp at h2
    exact h2.symm

theorem append_get {α} {l : List α} {x c : α} {a : Nat} (h : l[a]? = some c) : (l ++ [x])[a]? = some c := by
  rw [List.getElem?_append_left (List.getElem?_eq_some_iff.1 h).1]; exact h

theorem append_last {α} (l : List α) (x : α) : (l ++ [x])[l.length]? = some x := by simp

/-- Growing the heap by a young object. The roots may or may not get a reference to it. -/
theorem HInv.grow {h : Heap} (I : HInv h) {o : Obj} (ho : ∀ a, Val.ref a ∈ o.vals → ∃ v, Resolves h.mem a v)
    (hs : h.Supported o) : HInv { h with mem := h.mem ++ [.obj o], space := h.space ++ [.young] } := by
  have hlen := I.len
  refine ⟨by simp [I.len], ?_, ?_, ?_, ?_, ?_, ?_, ?_, ?_, ?_, ?_⟩
  · intro a n e
    rcases get_append e with ⟨_, e⟩ | ⟨_, e⟩
    · exact I.fresh a n e
    · cases e
  · intro a
    constructor
    · intro e
      rcases get_append e with ⟨_, e⟩ | ⟨_, e⟩
      · exact append_get ((I.gone a).1 e)
      · cases e
    · intro e
      rcases get_append e with ⟨_, e⟩ | ⟨_, e⟩
      · exact append_get ((I.gone a).2 e)
      · cases e
  · intro a c b e hb
    rcases get_append e with ⟨_, e⟩ | ⟨_, rfl⟩
    · obtain ⟨v, hv⟩ := I.closed a c b e hb; exact ⟨v, hv.append _⟩
    · obtain ⟨v, hv⟩ := ho b hb; exact ⟨v, hv.append _⟩
  · intro b hb
    obtain ⟨v, hv⟩ := I.roots b hb; exact ⟨v, hv.append _⟩
  · intro a b e e'
    rcases get_append e' with ⟨lt, e'⟩ | ⟨_, h⟩
    · rcases get_append e with ⟨_, e⟩ | ⟨h, _⟩
      · exact append_get (I.young a b e e')
      · omega
    · cases h
  · intro a b e e'
    rcases get_append e' with ⟨lt, e'⟩ | ⟨_, h⟩
    · rcases get_append e with ⟨_, e⟩ | ⟨h, _⟩
      · rcases I.old a b e e' with h | h
        · exact .inl (append_get h)
        · exact .inr (append_get h)
      · omega
    · cases h
  · intro a o' e
    have up : ∀ x : Nat, h.space[x]? = some .prot → x ∈ h.strings → (h.space ++ [Space.young])[x]? = some .prot ∧
        x ∈ h.strings := fun x h1 h2 => ⟨append_get h1, h2⟩
    rcases get_append e with ⟨_, e⟩ | ⟨_, e⟩
    · exact Supported.mono (I.supp a o' e) up
    · cases e; exact Supported.mono hs up
  · intro a ha
    rcases I.store a ha with h | h
    · exact .inl (append_get h)
    · exact .inr (append_get h)
  · intro a c b hn e ha hb hy
    rcases get_append e with ⟨lt, e⟩ | ⟨hl, rfl⟩
    · rcases get_append hy with ⟨_, hy⟩ | ⟨hb', _⟩
      · refine I.barrier a c b (fun hh => hn (append_get hh)) e ha hb hy
      · obtain ⟨v, hv⟩ := I.closed a c b e hb
        exact absurd (hb'.trans I.len) (Nat.ne_of_lt hv.lt)
    · apply hn
      show (h.space ++ [Space.young])[a]? = _
      rw [hl, ← I.len]; exact append_last _ _
  · intro s hs
    obtain ⟨c, hc⟩ := I.strings s hs
    exact ⟨c, append_get hc⟩

theorem HInv.setRoots {h : Heap} (I : HInv h) {roots : List Val}
    (hr : ∀ b, Val.ref b ∈ roots → ∃ v, Resolves h.mem b v) : HInv { h with roots } :=
  ⟨I.len, I.fresh, I.gone, I.closed, hr, I.young, I.old, I.supp, I.store, I.barrier, I.strings⟩

theorem HInv.alloc {h : Heap} (I : HInv h) {o : Obj} (ho : h.Holds o) (hs : h.Supported o) : HInv (h.alloc o) := by
  refine (I.grow (fun a ha => I.roots a (ho a ha)) hs).setRoots (roots := .ref h.mem.length :: h.roots) ?_
  intro b hb
  rcases List.mem_cons.1 hb with e | hb
  · cases e; exact ⟨_, .here (append_last _ _)⟩
  · obtain ⟨v, hv⟩ := I.roots b hb; exact ⟨v, hv.append _⟩

theorem HInv.intern {h : Heap} (I : HInv h) (chars : List Nat) : HInv (h.intern chars) := by
  have J := I.alloc (o := .raw chars) (by intro a ha; simp [Obj.vals] at ha) trivial
  have up : ∀ (o : Obj), (h.alloc (.raw chars)).Supported o → (h.intern chars).Supported o := fun o s =>
    Supported.mono s (fun a h1 h2 => ⟨h1, List.mem_cons_of_mem _ h2⟩)
  refine ⟨J.len, J.fresh, J.gone, J.closed, J.roots, J.young, J.old, fun a o e => up o (J.supp a o e), J.store, J.barrier, ?_⟩
  intro s hs
  rcases List.mem_cons.1 hs with rfl | hs
  · exact ⟨chars, append_last _ _⟩
  · exact J.strings s hs

/-- The invariant, except that the cell `t` may have been changed without being touched. -/
structure HInvExcept (t : Addr) (h : Heap) : Prop where
  len : h.space.length = h.mem.length
  fresh : ∀ (a n : Nat), h.mem[a]? ≠ some (.copied n)
  gone : ∀ a : Nat, h.mem[a]? = some .free ↔ h.space[a]? = some .gone
  closed : ∀ (a : Nat) c b, h.mem[a]? = some c → Val.ref b ∈ c.vals → ∃ v, Resolves h.mem b v
  roots : ∀ b, Val.ref b ∈ h.roots → ∃ v, Resolves h.mem b v
  young : ∀ a b : Nat, h.space[a]? = some .young → h.mem[a]? = some (.fwd b) → h.space[b]? = some .young
  old : ∀ a b : Nat, h.space[a]? = some .old → h.mem[a]? = some (.fwd b) →
    h.space[b]? = some .young ∨ h.space[b]? = some .old
  supp : ∀ (a : Nat) o, h.mem[a]? = some (.obj o) → h.Supported o
  store : ∀ a : Nat, a ∈ h.store → h.space[a]? = some .prot ∨ h.space[a]? = some .old
  barrier : ∀ (a : Nat) c b, a ≠ t → h.space[a]? ≠ some .young → h.mem[a]? = some c → a ∉ h.store → Val.ref b ∈ c.vals →
    h.space[b]? ≠ some .young
  strings : ∀ s : Nat, s ∈ h.strings → ∃ chars, h.mem[s]? = some (.obj (.raw chars))

/-- PN_TOUCH of the changed cell, or of any cell if the changed one is young. -/
theorem HInvExcept.touch {t x : Nat} {h : Heap} (I : HInvExcept t h) (hx : x = t ∨ h.space[t]? = some .young)
    (hlt : ∃ v, Resolves h.mem x v) : HInv (h.touch x) := by
  obtain ⟨v, hv⟩ := hlt
  have lt : x < h.space.length := by rw [I.len]; exact hv.lt
  obtain ⟨s, hs⟩ : ∃ s, h.space[x]? = some s := ⟨h.space[x], List.getElem?_eq_some_iff.2 ⟨lt, rfl⟩⟩
  have hgone : s ≠ .gone := by
    rintro rfl
    have e := (I.gone x).2 hs
    cases hv with
    | here e' => rw [e] at e'; simp at e'
    | step e' _ => rw [e] at e'; simp at e'
  unfold Heap.touch
  split
  · rename_i hc
    refine ⟨I.len, I.fresh, I.gone, I.closed, I.roots, I.young, I.old, I.supp, I.store, ?_, I.strings⟩
    intro a c b hn e ha hb
    by_cases hat : a = t
    · subst hat
      rcases hx with rfl | hx
      · rcases hc with hc | hc
        · exact absurd (isYoung_iff.1 hc) hn
        · exact absurd (List.mem_of_mem_take hc) ha
      · exact absurd hx hn
    · exact I.barrier a c b hat hn e ha hb
  · rename_i hc
    refine ⟨I.len, I.fresh, I.gone, I.closed, I.roots, I.young, I.old, I.supp, ?_, ?_, I.strings⟩
    · intro a ha
      rcases List.mem_cons.1 ha with rfl | ha
      · cases s with
        | prot => exact .inl hs
        | old => exact .inr hs
        | young => exact absurd (.inl (isYoung_iff.2 hs)) hc
        | gone => exact absurd rfl hgone
      · exact I.store a ha
    · intro a c b hn e ha hb
      by_cases hat : a = t
      · subst hat
        rcases hx with rfl | hx
        · exact absurd (List.mem_cons_self) ha
        · exact absurd hx hn
      · exact I.barrier a c b hat hn e (fun h => ha (List.mem_cons_of_mem _ h)) hb

theorem Resolves.set_obj {m : Mem} {a v x : Nat} {o o' : Obj} (h : Resolves m a v) (hx : m[x]? = some (.obj o)) :
    Resolves (m.set x (.obj o')) a v := by
  have lt := (List.getElem?_eq_some_iff.1 hx).1
  refine h.mono (fun y b e => ?_) (fun y o1 e => ?_)
  · have : y ≠ x := by rintro rfl; rw [hx] at e; simp at e
    rw [List.getElem?_set_ne (Ne.symm this)]; exact e
  · by_cases hy : y = x
    · subst hy; exact ⟨o', List.getElem?_set_self lt⟩
    · exact ⟨o1, by rw [List.getElem?_set_ne (Ne.symm hy)]; exact e⟩

theorem poke_eq {h h' : Heap} {a v : Addr} {o : Obj} (hr : Resolves h.mem a v) (e : h.poke a o = some h') :
    ∃ o0, h.mem[v]? = some (.obj o0) ∧ h' = { h with mem := h.mem.set v (.obj o) } := by
  obtain ⟨o0, ho0⟩ := hr.obj
  refine ⟨o0, ho0, ?_⟩
  simpa [Heap.poke, hr.stop.fwd, ho0] using e.symm

theorem HInv.holdsAt {h : Heap} (I : HInv h) {v : Addr} {o : Obj} (ho : h.HoldsAt v o) :
    ∀ a, Val.ref a ∈ o.vals → ∃ w, Resolves h.mem a w := by
  intro a ha
  rcases ho a ha with h1 | ⟨o0, h1, h2⟩
  · exact I.roots a h1
  · exact I.closed v _ a h1 h2

theorem HInv.poke {h h' : Heap} (I : HInv h) {a v : Addr} {o : Obj} (hr : Resolves h.mem a v) (hv : v ∉ h.strings)
    (ho : h.HoldsAt v o) (hs : h.Supported o) (e : h.poke a o = some h') : HInvExcept v h' := by
  obtain ⟨o0, ho0, rfl⟩ := poke_eq hr e
  have lt : (v : Nat) < h.mem.length := (List.getElem?_eq_some_iff.1 ho0).1
  have at_v : (h.mem.set v (.obj o))[v]? = some (.obj o) := List.getElem?_set_self lt
  have ne : ∀ x : Nat, x ≠ v → (h.mem.set v (.obj o))[x]? = h.mem[x]? := fun x hx => List.getElem?_set_ne (Ne.symm hx)
  have cell : ∀ (x : Nat) c, (h.mem.set v (.obj o))[x]? = some c → (x = v ∧ c = .obj o) ∨ (x ≠ v ∧ h.mem[x]? = some c) := by
    intro x c e
    by_cases hx : x = v
    · subst hx; rw [at_v] at e; exact .inl ⟨rfl, by simpa using e.symm⟩
    · rw [ne x hx] at e; exact .inr ⟨hx, e⟩
  have res : ∀ b w, Resolves h.mem b w → Resolves (h.mem.set v (.obj o)) b w := fun b w hw => hw.set_obj ho0
  refine ⟨by simpa using I.len, ?_, ?_, ?_, ?_, ?_, ?_, ?_, I.store, ?_, ?_⟩
  · intro x n e
    rcases cell x _ e with ⟨_, e⟩ | ⟨_, e⟩
    · cases e
    · exact I.fresh x n e
  · intro x
    constructor
    · intro e
      rcases cell x _ e with ⟨_, e⟩ | ⟨_, e⟩
      · cases e
      · exact (I.gone x).1 e
    · intro e
      have e1 := (I.gone x).2 e
      have : x ≠ v := by rintro rfl; rw [ho0] at e1; simp at e1
      exact (ne x this).trans e1
  · intro x c b e hb
    rcases cell x _ e with ⟨_, rfl⟩ | ⟨_, e⟩
    · obtain ⟨w, hw⟩ := I.holdsAt ho b hb; exact ⟨w, res b w hw⟩
    · obtain ⟨w, hw⟩ := I.closed x c b e hb; exact ⟨w, res b w hw⟩
  · intro b hb
    obtain ⟨w, hw⟩ := I.roots b hb; exact ⟨w, res b w hw⟩
  · intro x b e e'
    rcases cell x _ e' with ⟨_, h⟩ | ⟨_, e'⟩
    · cases h
    · exact I.young x b e e'
  · intro x b e e'
    rcases cell x _ e' with ⟨_, h⟩ | ⟨_, e'⟩
    · cases h
    · exact I.old x b e e'
  · intro x o' e
    rcases cell x _ e with ⟨_, h⟩ | ⟨_, e⟩
    · cases h; exact Supported.mono hs fun _ h1 h2 => ⟨h1, h2⟩
    · exact Supported.mono (I.supp x o' e) fun _ h1 h2 => ⟨h1, h2⟩
  · intro x c b hxv hn e hx hb
    rcases cell x _ e with ⟨h, _⟩ | ⟨_, e⟩
    · exact absurd h hxv
    · exact I.barrier x c b hn e hx hb
  · intro s hs
    obtain ⟨chars, hc⟩ := I.strings s hs
    exact ⟨chars, (ne s (by rintro rfl; exact hv hs)).trans hc⟩

/-- Making the storage `v` forward to another object. -/
theorem HInv.forward {h : Heap} (I : HInv h) {v t : Nat} {o0 : Obj} (hv : h.mem[v]? = some (.obj o0))
    (ht : ∃ o, h.mem[t]? = some (.obj o)) (hvt : t ≠ v) (hs : v ∉ h.strings)
    (hy : h.space[v]? = some .young → h.space[t]? = some .young)
    (hp : h.space[t]? = some .young ∨ h.space[t]? = some .old) :
    HInvExcept v { h with mem := h.mem.set v (.fwd t) } ∧
    (∀ b w, Resolves h.mem b w → w ≠ v → Resolves (h.mem.set v (.fwd t)) b w) ∧
    (∀ b, Resolves h.mem b v → Resolves (h.mem.set v (.fwd t)) b t) := by
  have lt : v < h.mem.length := (List.getElem?_eq_some_iff.1 hv).1
  have at_v : (h.mem.set v (.fwd t))[v]? = some (.fwd t) := List.getElem?_set_self lt
  have ne : ∀ x : Nat, x ≠ v → (h.mem.set v (.fwd t))[x]? = h.mem[x]? := fun x hx => List.getElem?_set_ne (Ne.symm hx)
  have cell : ∀ (x : Nat) c, (h.mem.set v (.fwd t))[x]? = some c → (x = v ∧ c = .fwd t) ∨ (x ≠ v ∧ h.mem[x]? = some c) := by
    intro x c e
    by_cases hx : x = v
    · subst hx; rw [at_v] at e; exact .inl ⟨rfl, by simpa using e.symm⟩
    · rw [ne x hx] at e; exact .inr ⟨hx, e⟩
  have rt : Resolves (h.mem.set v (.fwd t)) t t := by
    obtain ⟨o, ho⟩ := ht
    exact .here ((ne t hvt).trans ho)
  have res1 : ∀ b w, Resolves h.mem b w → w ≠ v → Resolves (h.mem.set v (.fwd t)) b w := by
    intro b w hw
    induction hw with
    | here e => intro hx; exact .here ((ne _ hx).trans e)
    | @step a b w e _ ih =>
      intro hx
      have : a ≠ v := by rintro rfl; rw [hv] at e; simp at e
      exact .step ((ne _ this).trans e) (ih hx)
  have res2 : ∀ b w, Resolves h.mem b w → w = v → Resolves (h.mem.set v (.fwd t)) b t := by
    intro b w hw
    induction hw with
    | here e => rintro rfl; exact .step at_v rt
    | @step a b w e _ ih =>
      intro hx
      have : a ≠ v := by rintro rfl; rw [hv] at e; simp at e
      exact .step ((ne _ this).trans e) (ih hx)
  have res : ∀ b w, Resolves h.mem b w → ∃ w', Resolves (h.mem.set v (.fwd t)) b w' := by
    intro b w hw
    by_cases hwv : w = v
    · exact ⟨t, res2 b w hw hwv⟩
    · exact ⟨w, res1 b w hw hwv⟩
  refine ⟨⟨by simpa using I.len, ?_, ?_, ?_, ?_, ?_, ?_, ?_, I.store, ?_, ?_⟩, res1, fun b hb => res2 b v hb rfl⟩
  · intro x n e
    rcases cell x _ e with ⟨_, e⟩ | ⟨_, e⟩
    · cases e
    · exact I.fresh x n e
  · intro x
    constructor
    · intro e
      rcases cell x _ e with ⟨_, e⟩ | ⟨_, e⟩
      · cases e
      · exact (I.gone x).1 e
    · intro e
      have e1 := (I.gone x).2 e
      have : x ≠ v := by rintro rfl; rw [hv] at e1; simp at e1
      exact (ne x this).trans e1
  · intro x c b e hb
    rcases cell x _ e with ⟨_, rfl⟩ | ⟨_, e⟩
    · simp only [Cell.vals, List.mem_singleton, Val.ref.injEq] at hb
      subst hb
      exact ⟨_, rt⟩
    · obtain ⟨w, hw⟩ := I.closed x c b e hb; exact res b w hw
  · intro b hb
    obtain ⟨w, hw⟩ := I.roots b hb; exact res b w hw
  · intro x b e e'
    rcases cell x _ e' with ⟨h1, h2⟩ | ⟨_, e'⟩
    · subst h1; cases h2; exact hy e
    · exact I.young x b e e'
  · intro x b e e'
    rcases cell x _ e' with ⟨h1, h2⟩ | ⟨_, e'⟩
    · subst h1; cases h2; exact hp
    · exact I.old x b e e'
  · intro x o' e
    rcases cell x _ e with ⟨_, h⟩ | ⟨_, e⟩
    · cases h
    · exact Supported.mono (I.supp x o' e) fun _ h1 h2 => ⟨h1, h2⟩
  · intro x c b hxv hn e hx hb
    rcases cell x _ e with ⟨h, _⟩ | ⟨_, e⟩
    · exact absurd h hxv
    · exact I.barrier x c b hn e hx hb
  · intro s hs'
    obtain ⟨chars, hc⟩ := I.strings s hs'
    exact ⟨chars, (ne s (by rintro rfl; exact hs hs')).trans hc⟩

theorem realloc_eq {h h' : Heap} {a v : Addr} {o : Obj} (hr : Resolves h.mem a v) (e : h.realloc a o = some h') :
    ∃ o0, h.mem[v]? = some (.obj o0) ∧ (v : Nat) < h.mem.length ∧
      h' = Heap.touch { h with mem := (h.mem ++ [Cell.obj o]).set v (.fwd h.mem.length), space := h.space ++ [.young] } v := by
  obtain ⟨o0, ho0⟩ := hr.obj
  refine ⟨o0, ho0, (List.getElem?_eq_some_iff.1 ho0).1, ?_⟩
  simpa [Heap.realloc, hr.stop.fwd, ho0] using e.symm

theorem touch_mem (h : Heap) (x : Addr) : (h.touch x).mem = h.mem ∧ (h.touch x).roots = h.roots ∧
    (h.touch x).space = h.space ∧ (h.touch x).strings = h.strings := by
  unfold Heap.touch; split <;> simp

theorem HInv.realloc {h h' : Heap} (I : HInv h) {a v : Addr} {o : Obj} (hr : Resolves h.mem a v) (hv : v ∉ h.strings)
    (ho : h.HoldsAt v o) (hs : h.Supported o) (e : h.realloc a o = some h') : HInv h' ∧
    (∀ b w, Resolves h.mem b w → w ≠ v → Resolves h'.mem b w) ∧
    (∀ b, Resolves h.mem b v → Resolves h'.mem b h.mem.length) := by
  obtain ⟨o0, ho0, lt, rfl⟩ := realloc_eq hr e
  have J := I.grow (o := o) (fun x hx => I.holdsAt ho x hx) hs
  have sp : (h.space ++ [Space.young])[h.mem.length]? = some .young := by rw [← I.len]; exact append_last _ _
  obtain ⟨h1, h2, h3⟩ := J.forward (v := v) (t := h.mem.length) (append_get ho0) ⟨o, append_last _ _⟩
    (Nat.ne_of_gt lt) hv (fun _ => sp) (.inl sp)
  refine ⟨h1.touch (.inl rfl) ?_, ?_, ?_⟩
  · exact ⟨_, h3 v (Resolves.append (.here ho0) _)⟩
  · intro b w hw hne
    rw [(touch_mem _ _).1]
    exact h2 b w (hw.append _) hne
  · intro b hb
    rw [(touch_mem _ _).1]
    exact h3 b (hb.append _)

theorem HInv.write {h h' : Heap} (I : HInv h) {a v : Addr} {o : Obj} (hr : Resolves h.mem a v) (hv : v ∉ h.strings)
    (ho : h.HoldsAt v o) (hs : h.Supported o) (hd : a = v ∨ h.isYoung v = true) (e : h.write a o = some h') : HInv h' := by
  obtain ⟨h1, e1, rfl⟩ := Option.map_eq_some_iff.1 e
  have J := I.poke hr hv ho hs e1
  obtain ⟨o0, ho0, rfl⟩ := poke_eq hr e1
  exact J.touch (hd.imp id isYoung_iff.1) ⟨v, hr.set_obj ho0⟩

theorem HInv.boot {h : Heap} (b : h.Boot) : HInv h := by
  have sp : ∀ x : Nat, x < h.mem.length → h.space[x]? = some .prot := by
    intro x hx; rw [b.space, List.getElem?_replicate, if_pos hx]
  have sp' : ∀ (x : Nat) s, h.space[x]? = some s → s = .prot := by
    intro x s e
    rw [b.space, List.getElem?_replicate] at e
    split at e <;> simp_all
  have here : ∀ x : Nat, x < h.mem.length → Resolves h.mem x x := by
    intro x hx
    have e : h.mem[x]? = some h.mem[x] := List.getElem?_eq_some_iff.2 ⟨hx, rfl⟩
    obtain ⟨o, ho, _⟩ := b.objs x _ e
    rw [ho] at e
    exact .here e
  refine ⟨by rw [b.space]; simp, ?_, ?_, ?_, ?_, ?_, ?_, ?_, ?_, ?_, b.strings⟩
  · intro a n e; obtain ⟨o, ho, _⟩ := b.objs a _ e; cases ho
  · intro a
    constructor
    · intro e; obtain ⟨o, ho, _⟩ := b.objs a _ e; cases ho
    · intro e; have := sp' a _ e; cases this
  · intro a c x e hx
    obtain ⟨o, rfl, _⟩ := b.objs a _ e
    exact ⟨x, here x (b.closed a o x e hx)⟩
  · intro x hx; exact ⟨x, here x (b.roots x hx)⟩
  · intro a x e _; have := sp' a _ e; cases this
  · intro a x e _; have := sp' a _ e; cases this
  · intro a o e; obtain ⟨o', ho, hs⟩ := b.objs a _ e; cases ho; exact hs
  · intro a ha; rw [b.store] at ha; simp at ha
  · intro a c x _ _ _ _ e; have := sp' x _ e; cases this

theorem HInv.step {h h' : Heap} (I : HInv h) (s : Step h h') : HInv h' := by
  cases s with
  | alloc o ho hs => exact I.alloc ho hs
  | intern chars => exact I.intern chars
  | @load a v o r ha hr ho hm =>
    refine I.setRoots ?_
    intro b hb
    rcases List.mem_cons.1 hb with rfl | hb
    · exact I.closed v _ b ho hm
    · exact I.roots b hb
  | forget hsub => exact I.setRoots fun b hb => I.roots b (hsub hb)
  | write ha hr hv ho hs hd e => exact I.write hr hv ho hs hd e
  | realloc ha hr hv ho hs e => exact (I.realloc hr hv ho hs e).1
  | minor e =>
    obtain ⟨m1, m3, roots', e', _, _, _, _, J⟩ := I.minor
    rw [e] at e'
    cases Option.some.inj e'
    exact J
  | major e =>
    obtain ⟨m3, roots', e', _, J⟩ := I.major
    rw [e] at e'
    cases Option.some.inj e'
    exact J

theorem Run.inv {h : Heap} (r : Run h) : HInv h := by
  induction r with
  | boot b => exact .boot b
  | step _ s ih => exact ih.step s

end Potion.Gc
