import Verif.Proof.Khash
import Verif.Spec.Map
namespace Potion
open Spec
variable {K V : Type}

theorem latest_nil [DecidableEq K] (k : K) : latest ([] : List (TOp K V)) k = none := rfl

theorem latest_snoc [DecidableEq K] (ops : List (TOp K V)) (op : TOp K V) (k : K) :
    latest (ops ++ [op]) k = match effect k op with | some o => o | none => latest ops k := by
  unfold latest
  rw [List.reverse_append]
  simp only [List.reverse_cons, List.reverse_nil, List.nil_append, List.singleton_append, List.findSome?_cons]
  cases effect k op <;> simp

/-- The table represents a partial map. -/
def Reps (h : KH K V) (m : K → Option V) : Prop := ∀ k v, m k = some v ↔ h.Has k v

theorem run_append [DecidableEq K] (hash : K → Nat) (h : KH K V) (a b : List (TOp K V)) :
    KH.run hash h (a ++ b) = (KH.run hash h a).bind (fun h' => KH.run hash h' b) := by
  induction a generalizing h with
  | nil => rfl
  | cons op ops ih =>
    simp only [List.cons_append, KH.run]
    cases h.apply hash op with
    | none => rfl
    | some h' => simp only; exact ih h'

theorem run_from [DecidableEq K] (hash : K → Nat) (ops : List (TOp K V)) :
    ∃ h, KH.run hash (KH.new : KH K V) ops = some h ∧ WF hash h ∧ Reps h (latest ops) := by
  have main : ∀ n (ops : List (TOp K V)), ops.length = n →
      ∃ h, KH.run hash (KH.new : KH K V) ops = some h ∧ WF hash h ∧ Reps h (latest ops) := by
    intro n
    induction n with
    | zero =>
      intro ops hn
      have : ops = [] := List.eq_nil_of_length_eq_zero hn
      subst this
      refine ⟨_, rfl, WF.new hash, ?_⟩
      intro k v
      rw [latest_nil]
      constructor
      · intro h; cases h
      · rintro ⟨i, hi⟩; cases hi
    | succ n ih =>
      intro ops hn
      obtain ⟨pre, op, rfl⟩ : ∃ pre op, ops = pre ++ [op] := by
        have hne : ops ≠ [] := by intro h; rw [h] at hn; cases hn
        exact ⟨ops.dropLast, ops.getLast hne, (List.dropLast_concat_getLast hne).symm⟩
      obtain ⟨h, hr, w, hrep⟩ := ih pre (by simp at hn; omega)
      rw [run_append, hr]
      simp only [Option.bind_some, KH.run]
      cases op with
      | put key v =>
        obtain ⟨h', hp, w', hh⟩ := w.put_spec key v
        simp only [KH.apply, hp]
        refine ⟨h', rfl, w', ?_⟩
        intro k v'
        rw [latest_snoc, hh]
        by_cases hk : key = k
        · subst hk
          simp only [effect, if_true, Option.some.injEq]
          constructor
          · rintro rfl; exact Or.inl ⟨trivial, rfl⟩
          · rintro (⟨_, rfl⟩ | ⟨hne, _⟩)
            · rfl
            · exact absurd rfl hne
        · simp only [effect, if_neg hk]
          rw [hrep k v']
          constructor
          · intro h1; exact Or.inr ⟨fun e => hk e.symm, h1⟩
          · rintro (⟨e, _⟩ | ⟨_, h1⟩)
            · exact absurd e.symm hk
            · exact h1
      | remove key =>
        obtain ⟨h', hp, w', hh⟩ := w.remove_spec key
        simp only [KH.apply, hp]
        refine ⟨h', rfl, w', ?_⟩
        intro k v'
        rw [latest_snoc, hh]
        by_cases hk : key = k
        · subst hk
          simp only [effect, if_true]
          constructor
          · intro h1; cases h1
          · rintro ⟨hne, _⟩; exact absurd rfl hne
        · simp only [effect, if_neg hk]
          rw [hrep k v']
          constructor
          · intro h1; exact ⟨fun e => hk e.symm, h1⟩
          · exact fun h1 => h1.2
  exact main ops.length ops rfl

theorem mem_entries {hash : K → Nat} {h : KH K V} (w : WF hash h) (k : K) (v : V) :
    (k, v) ∈ h.entries ↔ h.Has k v := by
  unfold KH.entries KH.Has
  simp only [List.mem_filterMap, List.mem_range]
  have hit : ∀ s : Slot K V, s.item = some (k, v) ↔ s = .live k v := by
    intro s; cases s <;> simp [Slot.item]
  constructor
  · rintro ⟨i, _, hi⟩; exact ⟨i, (hit _).1 hi⟩
  · rintro ⟨i, hi⟩; exact ⟨i, w.lt hi, (hit _).2 hi⟩

theorem entries_length_aux (f : Nat → Slot K V) (n : Nat) :
    ((List.range n).filterMap fun i => (f i).item).length = cnt (fun i => (f i).isLive) n := by
  induction n with
  | zero => rfl
  | succ n ih =>
    rw [List.range_succ, List.filterMap_append, List.length_append, ih, cnt]
    cases hs : f n <;> simp [hs, Slot.item, Slot.isLive]

theorem entries_length {hash : K → Nat} {h : KH K V} (w : WF hash h) : h.entries.length = h.size := by
  rw [w.size]; exact entries_length_aux _ _

theorem keys_nodup {hash : K → Nat} {h : KH K V} (w : WF hash h) : h.keys.Nodup := by
  unfold KH.keys KH.entries
  rw [List.map_filterMap, List.Nodup, List.pairwise_filterMap]
  apply List.Pairwise.imp_of_mem (R := fun a b => a ≠ b)
  · intro a b _ _ hab k hk k' hk' heq
    simp only [Option.map_eq_some_iff] at hk hk'
    obtain ⟨⟨k1, v1⟩, h1, h1e⟩ := hk
    obtain ⟨⟨k2, v2⟩, h2, h2e⟩ := hk'
    simp only at h1e h2e
    subst h1e h2e heq
    have e1 : h.slot a = .live k1 v1 := by cases hs : h.slot a <;> simp_all [Slot.item]
    have e2 : h.slot b = .live k1 v2 := by cases hs : h.slot b <;> simp_all [Slot.item]
    exact hab (w.uniq _ _ _ _ _ e1 e2)
  · exact List.nodup_range

theorem putAll_spec [DecidableEq K] {hash : K → Nat} (kvs : List (K × V)) :
    ∀ {h : KH K V}, WF hash h → (kvs.map (·.1)).Nodup →
      ∃ h', h.putAll hash kvs = some h' ∧ WF hash h' ∧
        ∀ k v, h'.Has k v ↔ (k, v) ∈ kvs ∨ (k ∉ kvs.map (·.1) ∧ h.Has k v) := by
  induction kvs with
  | nil =>
    intro h w _
    exact ⟨h, rfl, w, by simp⟩
  | cons kv rest ih =>
    intro h w hnd
    obtain ⟨k0, v0⟩ := kv
    simp only [List.map_cons, List.nodup_cons] at hnd
    obtain ⟨h1, hp, w1, hh1⟩ := w.put_spec k0 v0
    obtain ⟨h2, hp2, w2, hh2⟩ := ih w1 hnd.2
    refine ⟨h2, by simp only [KH.putAll, hp, hp2], w2, ?_⟩
    intro k v
    rw [hh2, hh1]
    simp only [List.mem_cons, List.map_cons, Prod.mk.injEq, not_or]
    constructor
    · rintro (h3 | ⟨h3, h4 | h4⟩)
      · exact Or.inl (Or.inr h3)
      · exact Or.inl (Or.inl h4)
      · exact Or.inr ⟨⟨h4.1, h3⟩, h4.2⟩
    · rintro ((h3 | h3) | ⟨⟨h3, h4⟩, h5⟩)
      · refine Or.inr ⟨?_, Or.inl h3⟩
        rw [h3.1]; exact hnd.1
      · exact Or.inl h3
      · exact Or.inr ⟨h4, Or.inr ⟨h3, h5⟩⟩

theorem clone_spec [DecidableEq K] {hash : K → Nat} {h : KH K V} (w : WF hash h) :
    ∃ t, h.clone hash = some t ∧ WF hash t ∧ ∀ k v, t.Has k v ↔ h.Has k v := by
  obtain ⟨t0, hr, w0, _, _, hh0, _⟩ := (WF.new (V := V) hash).resize_spec
  obtain ⟨t, hp, wt, hh⟩ := putAll_spec h.entries w0 (keys_nodup w)
  refine ⟨t, by simp only [KH.clone, hr, hp], wt, ?_⟩
  intro k v
  rw [hh, mem_entries w, hh0]
  constructor
  · rintro (h1 | ⟨_, i, hi⟩)
    · exact h1
    · cases hi
  · exact Or.inl

theorem slice_spec [DecidableEq K] {hash : K → Nat} {h : KH K V} (w : WF hash h) (ks : List K) :
    ∃ t, h.slice hash ks = some t ∧ WF hash t ∧ ∀ k v, t.Has k v ↔ k ∈ ks ∧ h.Has k v := by
  obtain ⟨t0, hr, w0, _, _, hh0, _⟩ := (WF.new (V := V) hash).resize_spec
  have loop : ∀ (ks : List K) (t : KH K V), WF hash t → (∀ k v, t.Has k v → h.Has k v) →
      ∃ t', KH.sliceLoop hash h t ks = some t' ∧ WF hash t' ∧
        ∀ k v, t'.Has k v ↔ (k ∈ ks ∧ h.Has k v) ∨ t.Has k v := by
    intro ks
    induction ks with
    | nil => intro t wt _; exact ⟨t, rfl, wt, by simp⟩
    | cons k0 ks ih =>
      intro t wt hsub
      obtain ⟨o, ho, hov⟩ := w.at_spec k0
      cases o with
      | none =>
        obtain ⟨t', h1, h2, h3⟩ := ih t wt hsub
        refine ⟨t', by simp only [KH.sliceLoop, ho, h1], h2, ?_⟩
        intro k v
        rw [h3]
        simp only [List.mem_cons]
        constructor
        · rintro (⟨h4, h5⟩ | h4)
          · exact Or.inl ⟨Or.inr h4, h5⟩
          · exact Or.inr h4
        · rintro (⟨rfl | h4, h5⟩ | h4)
          · have := (hov v).2 h5; cases this
          · exact Or.inl ⟨h4, h5⟩
          · exact Or.inr h4
      | some v0 =>
        have hv0 := (hov v0).1 rfl
        obtain ⟨t1, hp, w1, hh1⟩ := wt.put_spec k0 v0
        have hsub1 : ∀ k v, t1.Has k v → h.Has k v := by
          intro k v hk
          rcases (hh1 k v).1 hk with ⟨rfl, rfl⟩ | ⟨_, hk⟩
          · exact hv0
          · exact hsub k v hk
        obtain ⟨t', h1, h2, h3⟩ := ih t1 w1 hsub1
        refine ⟨t', by simp only [KH.sliceLoop, ho, hp, h1], h2, ?_⟩
        intro k v
        rw [h3, hh1]
        simp only [List.mem_cons]
        constructor
        · rintro (⟨h4, h5⟩ | ⟨rfl, rfl⟩ | ⟨h4, h5⟩)
          · exact Or.inl ⟨Or.inr h4, h5⟩
          · exact Or.inl ⟨Or.inl rfl, hv0⟩
          · exact Or.inr h5
        · rintro (⟨rfl | h4, h5⟩ | h4)
          · exact Or.inr (Or.inl ⟨rfl, w.has_unique h5 hv0⟩)
          · exact Or.inl ⟨h4, h5⟩
          · by_cases hk : k = k0
            · subst hk; exact Or.inr (Or.inl ⟨rfl, w.has_unique (hsub _ _ h4) hv0⟩)
            · exact Or.inr (Or.inr ⟨hk, h4⟩)
  obtain ⟨t, h1, h2, h3⟩ := loop ks t0 w0 (by
    intro k v hk
    obtain ⟨i, hi⟩ := (hh0 k v).1 hk
    cases hi)
  refine ⟨t, by simp only [KH.slice, hr, h1], h2, ?_⟩
  intro k v
  rw [h3, hh0]
  constructor
  · rintro (h4 | ⟨i, hi⟩)
    · exact h4
    · cases hi
  · exact Or.inl

end Potion
