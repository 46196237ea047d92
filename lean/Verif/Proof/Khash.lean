import Verif.Proof.Probe
import Verif.Proof.Count
/-! Representation invariant of the hash table, and refinement to finite maps. -/
namespace Potion
variable {K V : Type}

/-- The representation invariant. -/
structure WF (hash : K → Nat) (h : KH K V) : Prop where
  pow : h.nb = 0 ∨ ∃ e, 2 ≤ e ∧ h.nb = 2^e
  ub : h.ub = upperBound h.nb
  size : h.size = cnt (fun i => (h.slot i).isLive) h.nb
  occ : h.nOcc = cnt (fun i => (h.slot i).isOcc) h.nb
  le : h.nOcc ≤ h.ub
  out : ∀ i, h.nb ≤ i → h.slot i = .empty
  path : ∀ i k v, h.slot i = .live k v →
    ∃ t, i = seq h.nb (hash k) t ∧ ∀ s, s < t → (h.slot (seq h.nb (hash k) s)).isOcc = true
  uniq : ∀ i j k v w, h.slot i = .live k v → h.slot j = .live k w → i = j

/-- The table associates `k` with `v`. -/
def KH.Has (h : KH K V) (k : K) (v : V) : Prop := ∃ i, h.slot i = .live k v

theorem WF.lt {hash : K → Nat} {h : KH K V} (w : WF hash h) {i k v} (hi : h.slot i = .live k v) : i < h.nb := by
  by_contra hn
  rw [w.out i (by omega)] at hi
  cases hi

theorem Slot.isOcc_of_isLive (s : Slot K V) : s.isLive = true → s.isOcc = true := by cases s <;> simp [Slot.isLive, Slot.isOcc]

theorem WF.size_le_occ {hash : K → Nat} {h : KH K V} (w : WF hash h) : h.size ≤ h.nOcc := by
  rw [w.size, w.occ]
  exact cnt_mono (fun i _ hi => Slot.isOcc_of_isLive _ hi)

theorem upperBound_lt {n : Nat} (h : 4 ≤ n) : upperBound n < n := by unfold upperBound; omega

theorem WF.pow2 {hash : K → Nat} {h : KH K V} (w : WF hash h) (h0 : h.nb ≠ 0) : (∃ e, h.nb = 2^e) ∧ 4 ≤ h.nb := by
  rcases w.pow with h1 | ⟨e, he, h1⟩
  · exact absurd h1 h0
  · refine ⟨⟨e, h1⟩, ?_⟩
    rw [h1]
    calc 4 = 2^2 := rfl
      _ ≤ 2^e := Nat.pow_le_pow_right (by omega) he

theorem Slot.isOcc_false {s : Slot K V} (h : s.isOcc = false) : s = .empty := by cases s <;> simp_all [Slot.isOcc]

theorem WF.exists_empty {hash : K → Nat} {h : KH K V} (w : WF hash h) (h0 : h.nb ≠ 0) :
    ∃ i, i < h.nb ∧ h.slot i = .empty := by
  have h4 := (w.pow2 h0).2
  have : cnt (fun i => (h.slot i).isOcc) h.nb < h.nb := by
    have := w.le
    rw [w.ub] at this
    have := upperBound_lt h4
    rw [← w.occ]; omega
  obtain ⟨i, hi, hf⟩ := cnt_lt_exists this
  exact ⟨i, hi, Slot.isOcc_false hf⟩

/-- Probing for `key` stops at bucket `i`. -/
def KH.Stop (h : KH K V) (key : K) (i : Nat) : Prop := h.slot i = .empty ∨ ∃ v, h.slot i = .live key v

theorem WF.exists_stop {hash : K → Nat} {h : KH K V} (w : WF hash h) (h0 : h.nb ≠ 0) (key : K) :
    ∃ T, T < h.nb ∧ h.Stop key (seq h.nb (hash key) T) ∧ ∀ s, s < T → ¬ h.Stop key (seq h.nb (hash key) s) := by
  classical
  obtain ⟨i, hi, he⟩ := w.exists_empty h0
  obtain ⟨t, ht, hti⟩ := seq_surj (w.pow2 h0).1 (hash key) hi
  have hex : ∃ t, h.Stop key (seq h.nb (hash key) t) := ⟨t, Or.inl (by rw [hti]; exact he)⟩
  refine ⟨Nat.find hex, ?_, Nat.find_spec hex, fun s hs => Nat.find_min hex hs⟩
  exact Nat.lt_of_le_of_lt (Nat.find_min' hex (Or.inl (by rw [hti]; exact he))) ht

/-- Everything probed before the stop is occupied. -/
theorem KH.occ_of_not_stop {h : KH K V} {key : K} {i : Nat} (hs : ¬ h.Stop key i) : (h.slot i).isOcc = true := by
  cases he : h.slot i with
  | empty => exact absurd (Or.inl he) hs
  | del => rfl
  | live k v => rfl

/-- If the key is present, probing stops exactly there. -/
theorem WF.stop_is_key {hash : K → Nat} {h : KH K V} (w : WF hash h) {key : K} {T : Nat}
    (hT : h.Stop key (seq h.nb (hash key) T)) (hmin : ∀ s, s < T → ¬ h.Stop key (seq h.nb (hash key) s))
    {i : Nat} {v : V} (hi : h.slot i = .live key v) : seq h.nb (hash key) T = i := by
  obtain ⟨t, hti, hocc⟩ := w.path i key v hi
  rcases Nat.lt_trichotomy T t with hlt | heq | hgt
  · have ho := hocc T hlt
    rcases hT with hT | ⟨v', hT⟩
    · rw [hT] at ho; simp [Slot.isOcc] at ho
    · exact w.uniq _ _ _ _ _ hT hi
  · rw [heq]; exact hti.symm
  · exact absurd (Or.inr ⟨v, by rw [← hti]; exact hi⟩) (hmin t hgt)

theorem getLoop_eq [DecidableEq K] {hash : K → Nat} {h : KH K V} (hp : ∃ e, h.nb = 2^e) (key : K) {T : Nat}
    (hTn : T < h.nb) (hmin : ∀ s, s < T → ¬ h.Stop key (seq h.nb (hash key) s))
    (hT : h.Stop key (seq h.nb (hash key) T)) :
    ∀ d t f, t + d = T → d < f →
      h.getLoop key (probeInc h.nb (hash key)) (seq h.nb (hash key) 0) f (seq h.nb (hash key) t) =
        match h.slot (seq h.nb (hash key) T) with
        | .empty => some h.nb
        | _ => some (seq h.nb (hash key) T) := by
  intro d
  induction d with
  | zero =>
    intro t f htd hf
    obtain ⟨f, rfl⟩ : ∃ g, f = g + 1 := ⟨f - 1, by omega⟩
    have : t = T := by omega
    subst this
    rw [KH.getLoop]
    rcases hT with hT | ⟨v, hT⟩
    · simp [hT]
    · simp [hT]
  | succ d ih =>
    intro t f htd hf
    obtain ⟨f, rfl⟩ : ∃ g, f = g + 1 := ⟨f - 1, by omega⟩
    have hns := hmin t (by omega)
    have hne : seq h.nb (hash key) (t+1) ≠ seq h.nb (hash key) 0 := by
      intro he
      have := seq_inj hp (by omega) (by omega) he
      omega
    have hrec := ih (t+1) f (by omega) (by omega)
    rw [KH.getLoop, probeNext_seq hp]
    cases he : h.slot (seq h.nb (hash key) t) with
    | empty => exact absurd (Or.inl he) hns
    | del => simp only [if_neg hne]; exact hrec
    | live k v =>
      have hk : k ≠ key := by rintro rfl; exact hns (Or.inr ⟨v, he⟩)
      simp only [if_neg hne, if_neg hk]; exact hrec

/-- `kh_get` terminates and finds the bucket holding the key, or reports absence. -/
theorem WF.get_spec [DecidableEq K] {hash : K → Nat} {h : KH K V} (w : WF hash h) (key : K) :
    ∃ x, h.get hash h.nb key = some x ∧
      ((∃ v, x < h.nb ∧ h.slot x = .live key v) ∨ (x = h.nb ∧ ∀ v, ¬ h.Has key v)) := by
  by_cases h0 : h.nb = 0
  · refine ⟨0, by simp [KH.get, h0], Or.inr ⟨h0.symm, ?_⟩⟩
    rintro v ⟨i, hi⟩
    have := w.lt hi
    omega
  · obtain ⟨T, hTn, hT, hmin⟩ := w.exists_stop h0 key
    have hp := (w.pow2 h0).1
    have hg : h.get hash h.nb key =
        match h.slot (seq h.nb (hash key) T) with
        | .empty => some h.nb
        | _ => some (seq h.nb (hash key) T) := by
      rw [KH.get, if_pos h0, probe0_eq hp]
      exact getLoop_eq (hash := hash) hp key hTn hmin hT T 0 h.nb (by omega) hTn
    rcases hT with hT | ⟨v, hT⟩
    · refine ⟨h.nb, by rw [hg, hT], Or.inr ⟨rfl, ?_⟩⟩
      rintro v ⟨i, hi⟩
      have := w.stop_is_key (Or.inl hT) hmin hi
      rw [this, hi] at hT
      cases hT
    · exact ⟨_, by rw [hg, hT], Or.inl ⟨v, w.lt hT, hT⟩⟩

theorem putLoop_eq [DecidableEq K] {hash : K → Nat} {h : KH K V} (hp : ∃ e, h.nb = 2^e) (key : K) {T : Nat}
    (hTn : T < h.nb) (hmin : ∀ s, s < T → ¬ h.Stop key (seq h.nb (hash key) s))
    (hT : h.Stop key (seq h.nb (hash key) T)) :
    ∀ d t f site, t + d = T → d < f →
      ∃ x, h.putLoop key (probeInc h.nb (hash key)) (seq h.nb (hash key) 0) f (seq h.nb (hash key) t) site = some x ∧
        (x = seq h.nb (hash key) T ∨
          (h.slot (seq h.nb (hash key) T) = .empty ∧
            ((x = site ∧ site ≠ h.nb) ∨ ∃ s, s < T ∧ x = seq h.nb (hash key) s ∧ h.slot x = .del))) := by
  intro d
  induction d with
  | zero =>
    intro t f site htd hf
    obtain ⟨f, rfl⟩ : ∃ g, f = g + 1 := ⟨f - 1, by omega⟩
    have : t = T := by omega
    subst this
    rw [KH.putLoop]
    rcases hT with hT | ⟨v, hT⟩
    · simp only [hT]
      by_cases hs : site = h.nb
      · exact ⟨_, by simp [hs], Or.inl rfl⟩
      · exact ⟨_, by simp [hs], Or.inr ⟨trivial, Or.inl ⟨rfl, hs⟩⟩⟩
    · simp only [hT]
      exact ⟨_, by simp, Or.inl rfl⟩
  | succ d ih =>
    intro t f site htd hf
    obtain ⟨f, rfl⟩ : ∃ g, f = g + 1 := ⟨f - 1, by omega⟩
    have hns := hmin t (by omega)
    have hne : seq h.nb (hash key) (t+1) ≠ seq h.nb (hash key) 0 := by
      intro he
      have := seq_inj hp (by omega) (by omega) he
      omega
    rw [KH.putLoop, probeNext_seq hp]
    cases he : h.slot (seq h.nb (hash key) t) with
    | empty => exact absurd (Or.inl he) hns
    | del =>
      simp only [if_neg hne]
      obtain ⟨x, h1, h2⟩ := ih (t+1) f (seq h.nb (hash key) t) (by omega) (by omega)
      refine ⟨x, h1, ?_⟩
      rcases h2 with h2 | ⟨h2, h3 | h3⟩
      · exact Or.inl h2
      · exact Or.inr ⟨h2, Or.inr ⟨t, by omega, h3.1, by rw [h3.1]; exact he⟩⟩
      · exact Or.inr ⟨h2, Or.inr h3⟩
    | live k v =>
      have hk : k ≠ key := by rintro rfl; exact hns (Or.inr ⟨v, he⟩)
      simp only [if_neg hne, if_neg hk]
      exact ih (t+1) f site (by omega) (by omega)

/-- `kh_put`'s search terminates at a bucket suitable for `key`. -/
theorem WF.putFind_spec [DecidableEq K] {hash : K → Nat} {h : KH K V} (w : WF hash h) (h0 : h.nb ≠ 0) (key : K) :
    ∃ t, h.putFind hash h.nb key = some (seq h.nb (hash key) t) ∧
      (∀ s, s < t → (h.slot (seq h.nb (hash key) s)).isOcc = true) ∧
      ((∃ v, h.slot (seq h.nb (hash key) t) = .live key v) ∨
        ((h.slot (seq h.nb (hash key) t)).isLive = false ∧ ∀ v, ¬ h.Has key v)) := by
  obtain ⟨T, hTn, hT, hmin⟩ := w.exists_stop h0 key
  have hp := (w.pow2 h0).1
  have habs : h.slot (seq h.nb (hash key) T) = .empty → ∀ v, ¬ h.Has key v := by
    rintro hT v ⟨i, hi⟩
    have := w.stop_is_key (Or.inl hT) hmin hi
    rw [this, hi] at hT
    cases hT
  have hocc : ∀ s, s < T → (h.slot (seq h.nb (hash key) s)).isOcc = true :=
    fun s hs => KH.occ_of_not_stop (hmin s hs)
  by_cases he : h.slot (probe0 h.nb (hash key)) = .empty
  · rw [probe0_eq hp] at he
    have hT0 : T = 0 := by
      by_contra hne
      exact hmin 0 (by omega) (Or.inl he)
    subst hT0
    refine ⟨0, ?_, by omega, Or.inr ⟨by rw [he]; rfl, habs he⟩⟩
    simp only [KH.putFind, probe0_eq hp, he]
  · have hput : h.putFind hash h.nb key =
        h.putLoop key (probeInc h.nb (hash key)) (seq h.nb (hash key) 0) h.nb (seq h.nb (hash key) 0) h.nb := by
      rw [KH.putFind]
      rw [probe0_eq hp] at he ⊢
      cases hs : h.slot (seq h.nb (hash key) 0) with
      | empty => exact absurd hs he
      | del => rfl
      | live k v => rfl
    obtain ⟨x, h1, h2⟩ := putLoop_eq (hash := hash) hp key hTn hmin hT T 0 h.nb h.nb (by omega) hTn
    rw [hput, h1]
    rcases h2 with h2 | ⟨h2, h3 | ⟨s, hs, h3, h4⟩⟩
    · refine ⟨T, by rw [h2], hocc, ?_⟩
      rcases hT with hT | ⟨v, hT⟩
      · exact Or.inr ⟨by rw [hT]; rfl, habs hT⟩
      · exact Or.inl ⟨v, hT⟩
    · exact absurd rfl h3.2
    · refine ⟨s, by rw [h3], fun s' hs' => hocc s' (by omega), Or.inr ⟨?_, habs h2⟩⟩
      rw [← h3, h4]; rfl

/-- Storing at a suitable bucket preserves the invariant and updates exactly one association. -/
theorem WF.putAt_spec {hash : K → Nat} {h : KH K V} (w : WF hash h) (hroom : h.nOcc < h.ub) (h0 : h.nb ≠ 0)
    {key : K} {t : Nat} (v : V)
    (hocc : ∀ s, s < t → (h.slot (seq h.nb (hash key) s)).isOcc = true)
    (hx : (∃ v, h.slot (seq h.nb (hash key) t) = .live key v) ∨
        ((h.slot (seq h.nb (hash key) t)).isLive = false ∧ ∀ v, ¬ h.Has key v)) :
    WF hash (h.putAt (seq h.nb (hash key) t) key v) ∧
    ∀ k' v', (h.putAt (seq h.nb (hash key) t) key v).Has k' v' ↔ (k' = key ∧ v' = v) ∨ (k' ≠ key ∧ h.Has k' v') := by
  have hlt : seq h.nb (hash key) t < h.nb := seq_lt (by omega) _ _
  generalize hxe : seq h.nb (hash key) t = x at *
  -- the new slot function in all cases
  have hslot : (h.putAt x key v).slot = upd h.slot x (.live key v) := by
    unfold KH.putAt
    cases hs : h.slot x with
    | empty => rfl
    | del => rfl
    | live k v0 =>
      rcases hx with ⟨v1, h1⟩ | ⟨h1, _⟩
      · rw [hs] at h1; cases h1; rfl
      · rw [hs] at h1; simp [Slot.isLive] at h1
  have hnb : (h.putAt x key v).nb = h.nb := by unfold KH.putAt; split <;> rfl
  have hub : (h.putAt x key v).ub = h.ub := by unfold KH.putAt; split <;> rfl
  -- no other bucket holds the key
  have hother : ∀ j v', j ≠ x → h.slot j ≠ .live key v' := by
    intro j v' hj hs
    rcases hx with ⟨v1, h1⟩ | ⟨_, h2⟩
    · exact hj (w.uniq _ _ _ _ _ hs h1)
    · exact h2 v' ⟨j, hs⟩
  have occmono : ∀ i, (h.slot i).isOcc = true → (upd h.slot x (.live key v) i).isOcc = true := by
    intro i hi
    by_cases hix : i = x
    · subst hix; rw [upd_same]; rfl
    · rw [upd_ne _ _ hix]; exact hi
  constructor
  · constructor
    · rw [hnb]; exact w.pow
    · rw [hub, hnb]; exact w.ub
    · rw [hslot, hnb, comp_upd Slot.isLive]
      have hsz := w.size
      unfold KH.putAt
      cases hs : h.slot x with
      | empty =>
        show h.size + 1 = _
        rw [show (Slot.live key v).isLive = true from rfl, cnt_upd_true hlt (by simp [hs, Slot.isLive]), ← hsz]
      | del =>
        show h.size + 1 = _
        rw [show (Slot.live key v).isLive = true from rfl, cnt_upd_true hlt (by simp [hs, Slot.isLive]), ← hsz]
      | live k v0 =>
        show h.size = _
        have : upd (fun i => (h.slot i).isLive) x (Slot.live key v).isLive = fun i => (h.slot i).isLive := by
          rw [show (Slot.live key v).isLive = (fun i => (h.slot i).isLive) x by simp [hs, Slot.isLive]]
          exact upd_self _ _
        rw [this]; exact hsz
    · rw [hslot, hnb, comp_upd Slot.isOcc]
      have hsz := w.occ
      unfold KH.putAt
      have same : (h.slot x).isOcc = true →
          upd (fun i => (h.slot i).isOcc) x (Slot.live key v).isOcc = fun i => (h.slot i).isOcc := by
        intro ho
        rw [show (Slot.live key v).isOcc = (fun i => (h.slot i).isOcc) x by simp only [ho]; rfl]
        exact upd_self _ _
      cases hs : h.slot x with
      | empty =>
        show h.nOcc + 1 = _
        rw [show (Slot.live key v).isOcc = true from rfl, cnt_upd_true hlt (by simp [hs, Slot.isOcc]), ← hsz]
      | del =>
        show h.nOcc = _
        rw [same (by rw [hs]; rfl)]; exact hsz
      | live k v0 =>
        show h.nOcc = _
        rw [same (by rw [hs]; rfl)]; exact hsz
    · rw [hub]
      unfold KH.putAt
      cases h.slot x <;> simp only <;> omega
    · intro i hi
      rw [hnb] at hi
      rw [hslot, upd_ne _ _ (by omega)]
      exact w.out i hi
    · intro i k v' hs
      rw [hslot] at hs ⊢
      rw [hnb]
      by_cases hix : i = x
      · subst hix
        rw [upd_same] at hs
        cases hs
        exact ⟨t, hxe.symm, fun s hs => occmono _ (hocc s hs)⟩
      · rw [upd_ne _ _ hix] at hs
        obtain ⟨t', h1, h2⟩ := w.path i k v' hs
        exact ⟨t', h1, fun s hs => occmono _ (h2 s hs)⟩
    · intro i j k v1 v2 h1 h2
      rw [hslot] at h1 h2
      by_cases hix : i = x <;> by_cases hjx : j = x
      · omega
      · subst hix
        rw [upd_same] at h1; rw [upd_ne _ _ hjx] at h2
        cases h1
        exact absurd h2 (hother _ _ hjx)
      · subst hjx
        rw [upd_same] at h2; rw [upd_ne _ _ hix] at h1
        cases h2
        exact absurd h1 (hother _ _ hix)
      · rw [upd_ne _ _ hix] at h1; rw [upd_ne _ _ hjx] at h2
        exact w.uniq _ _ _ _ _ h1 h2
  · intro k' v'
    unfold KH.Has
    rw [hslot]
    constructor
    · rintro ⟨i, hi⟩
      by_cases hix : i = x
      · subst hix; rw [upd_same] at hi; cases hi; exact Or.inl ⟨rfl, rfl⟩
      · rw [upd_ne _ _ hix] at hi
        refine Or.inr ⟨?_, i, hi⟩
        rintro rfl
        exact hother _ _ hix hi
    · rintro (⟨rfl, rfl⟩ | ⟨hne, i, hi⟩)
      · exact ⟨x, upd_same _ _ _⟩
      · refine ⟨i, ?_⟩
        have : i ≠ x := by
          rintro rfl
          rcases hx with ⟨v1, h1⟩ | ⟨h1, _⟩
          · rw [hi] at h1; cases h1; exact hne rfl
          · rw [hi] at h1; simp [Slot.isLive] at h1
        rw [upd_ne _ _ this]; exact hi

/-! ### Rehash -/

/-- Invariant of the in-place rehash from `n` to `m` buckets with an item in hand. -/
structure RInv (hash : K → Nat) (n m total : Nat) (items : K → V → Prop) (r : Rehash K V) (pend : Option (K × V)) :
    Prop where
  oldlt : ∀ i, r.oldLive i = true → i < n
  newlt : ∀ i, r.newFull i = true → i < m
  disj : ∀ i, r.newFull i = true → r.oldLive i = false
  cellOld : ∀ i, r.oldLive i = true → ∃ kv, r.cell i = some kv
  cellNew : ∀ i, r.newFull i = true → ∃ k v, r.cell i = some (k, v) ∧
    ∃ t, i = seq m (hash k) t ∧ ∀ s, s < t → r.newFull (seq m (hash k) s) = true
  items_iff : ∀ k v, items k v ↔
    (∃ i, (r.oldLive i = true ∨ r.newFull i = true) ∧ r.cell i = some (k, v)) ∨ pend = some (k, v)
  uniq : ∀ i j k v w, (r.oldLive i = true ∨ r.newFull i = true) → (r.oldLive j = true ∨ r.newFull j = true) →
    r.cell i = some (k, v) → r.cell j = some (k, w) → i = j
  pendUniq : ∀ i k v w, (r.oldLive i = true ∨ r.newFull i = true) → r.cell i = some (k, v) → pend ≠ some (k, w)
  count : cnt r.newFull m + cnt r.oldLive n + pend.toList.length = total

theorem findFree_spec {m : Nat} (hp : ∃ e, m = 2^e) (full : Nat → Bool) (hc : cnt full m < m) (hash : Nat) :
    ∃ t, findFree m full (probeInc m hash) m (probe0 m hash) = some (seq m hash t) ∧
      full (seq m hash t) = false ∧ ∀ s, s < t → full (seq m hash s) = true := by
  classical
  obtain ⟨i, hi, hf⟩ := cnt_lt_exists hc
  obtain ⟨t0, ht0, hti⟩ := seq_surj hp hash hi
  have hex : ∃ t, full (seq m hash t) = false := ⟨t0, by rw [hti]; exact hf⟩
  have hmin : ∀ s, s < Nat.find hex → full (seq m hash s) = true := by
    intro s hs
    simpa using Nat.find_min hex hs
  have hfind : full (seq m hash (Nat.find hex)) = false := Nat.find_spec hex
  have hlt : Nat.find hex < m := Nat.lt_of_le_of_lt (Nat.find_min' hex (by rw [hti]; exact hf)) ht0
  generalize Nat.find hex = T at *
  refine ⟨T, ?_, hfind, hmin⟩
  rw [probe0_eq hp]
  have key : ∀ d t f, t + d = T → d < f → findFree m full (probeInc m hash) f (seq m hash t) = some (seq m hash T) := by
    intro d
    induction d with
    | zero =>
      intro t f h1 h2
      obtain ⟨f, rfl⟩ : ∃ g, f = g + 1 := ⟨f - 1, by omega⟩
      have : t = T := by omega
      subst this
      simp [findFree, hfind]
    | succ d ih =>
      intro t f h1 h2
      obtain ⟨f, rfl⟩ : ∃ g, f = g + 1 := ⟨f - 1, by omega⟩
      rw [findFree, hmin t (by omega), probeNext_seq hp]
      simp only [if_true]
      exact ih (t+1) f (by omega) (by omega)
  exact key T 0 m (by omega) hlt

theorem placeLoop_spec {hash : K → Nat} {n m total : Nat} {items : K → V → Prop} (hp : ∃ e, m = 2^e) (hnm : n ≤ m)
    (htot : total < m) :
    ∀ f (r : Rehash K V) kv, RInv hash n m total items r (some kv) → cnt r.oldLive n < f →
      ∃ r', placeLoop hash n m f r kv = some r' ∧ RInv hash n m total items r' none ∧
        ∀ i, r'.oldLive i = true → r.oldLive i = true := by
  intro f
  induction f with
  | zero => intro r kv _ h; omega
  | succ f ih =>
    intro r kv inv hf
    obtain ⟨k, v⟩ := kv
    have hc : cnt r.newFull m < m := by have := inv.count; simp at this; omega
    obtain ⟨t, hfree, hfalse, hbefore⟩ := findFree_spec hp r.newFull hc (hash k)
    have hxm : seq m (hash k) t < m := seq_lt (by omega) _ _
    rw [placeLoop]
    simp only [hfree]
    generalize hxe : seq m (hash k) t = x at *
    have newmono : ∀ i, r.newFull i = true → upd r.newFull x true i = true := by
      intro i hi; by_cases h : i = x
      · subst h; rw [upd_same]
      · rw [upd_ne _ _ h]; exact hi
    by_cases hold : r.oldLive x = true
    · have hxn := inv.oldlt x hold
      obtain ⟨⟨k', v'⟩, hcell⟩ := inv.cellOld x hold
      rw [if_pos (by simp [hxn, hold])]
      simp only [hcell]
      have hkk : k' ≠ k := by
        rintro rfl
        exact inv.pendUniq x k' v' v (Or.inl hold) hcell rfl
      have inv' : RInv hash n m total items
          { newFull := upd r.newFull x true, cell := upd r.cell x (some (k, v)), oldLive := upd r.oldLive x false }
          (some (k', v')) := by
        constructor
        · intro i hi
          simp only at hi
          by_cases h : i = x
          · subst h; rw [upd_same] at hi; cases hi
          · rw [upd_ne _ _ h] at hi; exact inv.oldlt i hi
        · intro i hi
          simp only at hi
          by_cases h : i = x
          · omega
          · rw [upd_ne _ _ h] at hi; exact inv.newlt i hi
        · intro i hi
          simp only at hi ⊢
          by_cases h : i = x
          · subst h; rw [upd_same]
          · rw [upd_ne _ _ h] at hi ⊢; exact inv.disj i hi
        · intro i hi
          simp only at hi ⊢
          by_cases h : i = x
          · subst h; rw [upd_same] at hi; cases hi
          · rw [upd_ne _ _ h] at hi ⊢; exact inv.cellOld i hi
        · intro i hi
          simp only at hi ⊢
          by_cases h : i = x
          · subst h
            refine ⟨k, v, upd_same _ _ _, t, hxe.symm, fun s hs => newmono _ (hbefore s hs)⟩
          · rw [upd_ne _ _ h] at hi ⊢
            obtain ⟨k2, v2, h1, t2, h2, h3⟩ := inv.cellNew i hi
            exact ⟨k2, v2, h1, t2, h2, fun s hs => newmono _ (h3 s hs)⟩
        · intro k2 v2
          rw [inv.items_iff]
          simp only
          constructor
          · rintro (⟨i, hi, hci⟩ | hpe)
            · by_cases h : i = x
              · subst h; rw [hcell] at hci; right; exact hci
              · left; refine ⟨i, ?_, ?_⟩
                · rw [upd_ne _ _ h, upd_ne _ _ h]; exact hi
                · rw [upd_ne _ _ h]; exact hci
            · left; exact ⟨x, Or.inr (upd_same _ _ _), by rw [upd_same]; exact hpe⟩
          · rintro (⟨i, hi, hci⟩ | hpe)
            · by_cases h : i = x
              · subst h; rw [upd_same] at hci; right; exact hci
              · left; rw [upd_ne _ _ h, upd_ne _ _ h] at hi; rw [upd_ne _ _ h] at hci
                exact ⟨i, hi, hci⟩
            · left; exact ⟨x, Or.inl hold, by rw [hcell]; exact hpe⟩
        · intro i j k2 v2 w2 hi hj hci hcj
          simp only at hi hj hci hcj
          by_cases h : i = x <;> by_cases h' : j = x
          · omega
          · subst h
            rw [upd_same] at hci; rw [upd_ne _ _ h'] at hcj; rw [upd_ne _ _ h', upd_ne _ _ h'] at hj
            cases hci
            exact absurd rfl (inv.pendUniq j k w2 v hj hcj)
          · subst h'
            rw [upd_same] at hcj; rw [upd_ne _ _ h] at hci; rw [upd_ne _ _ h, upd_ne _ _ h] at hi
            cases hcj
            exact absurd rfl (inv.pendUniq i k v2 v hi hci)
          · rw [upd_ne _ _ h] at hci; rw [upd_ne _ _ h'] at hcj
            rw [upd_ne _ _ h, upd_ne _ _ h] at hi; rw [upd_ne _ _ h', upd_ne _ _ h'] at hj
            exact inv.uniq i j k2 v2 w2 hi hj hci hcj
        · intro i k2 v2 w2 hi hci he
          simp only at hi hci
          cases he
          by_cases h : i = x
          · subst h; rw [upd_same] at hci; cases hci; exact hkk rfl
          · rw [upd_ne _ _ h] at hci; rw [upd_ne _ _ h, upd_ne _ _ h] at hi
            exact h (inv.uniq i x k' v2 v' hi (Or.inl hold) hci hcell)
        · have := inv.count
          simp only [Option.toList_some, List.length_singleton] at this ⊢
          rw [cnt_upd_true hxm hfalse]
          have := cnt_upd_false (p := r.oldLive) hxn hold
          omega
      obtain ⟨r', h1, h2, h3⟩ := ih _ (k', v') inv' (by
        have := cnt_upd_false (p := r.oldLive) hxn hold
        simp only; omega)
      refine ⟨r', h1, h2, ?_⟩
      intro i hi
      have := h3 i hi
      simp only at this
      by_cases h : i = x
      · subst h; exact hold
      · rwa [upd_ne _ _ h] at this
    · rw [if_neg (by simp [hold])]
      refine ⟨_, rfl, ?_, fun i hi => hi⟩
      have hold' : r.oldLive x = false := by simpa using hold
      constructor
      · exact inv.oldlt
      · intro i hi
        simp only at hi
        by_cases h : i = x
        · omega
        · rw [upd_ne _ _ h] at hi; exact inv.newlt i hi
      · intro i hi
        simp only at hi ⊢
        by_cases h : i = x
        · subst h; exact hold'
        · rw [upd_ne _ _ h] at hi; exact inv.disj i hi
      · intro i hi
        simp only at hi ⊢
        have h : i ≠ x := by rintro rfl; exact hold hi
        rw [upd_ne _ _ h]; exact inv.cellOld i hi
      · intro i hi
        simp only at hi ⊢
        by_cases h : i = x
        · subst h
          refine ⟨k, v, upd_same _ _ _, t, hxe.symm, fun s hs => newmono _ (hbefore s hs)⟩
        · rw [upd_ne _ _ h] at hi ⊢
          obtain ⟨k2, v2, h1, t2, h2, h3⟩ := inv.cellNew i hi
          exact ⟨k2, v2, h1, t2, h2, fun s hs => newmono _ (h3 s hs)⟩
      · intro k2 v2
        rw [inv.items_iff]
        simp only
        constructor
        · rintro (⟨i, hi, hci⟩ | hpe)
          · have h : i ≠ x := by
              rintro rfl
              rcases hi with hi | hi
              · exact hold hi
              · rw [hi] at hfalse; cases hfalse
            left; refine ⟨i, ?_, ?_⟩
            · rw [upd_ne _ _ h]; exact hi
            · rw [upd_ne _ _ h]; exact hci
          · left; exact ⟨x, Or.inr (upd_same _ _ _), by rw [upd_same]; exact hpe⟩
        · rintro (⟨i, hi, hci⟩ | hpe)
          · by_cases h : i = x
            · subst h; rw [upd_same] at hci; right; exact hci
            · left; rw [upd_ne _ _ h] at hi; rw [upd_ne _ _ h] at hci
              exact ⟨i, hi, hci⟩
          · cases hpe
      · intro i j k2 v2 w2 hi hj hci hcj
        simp only at hi hj hci hcj
        by_cases h : i = x <;> by_cases h' : j = x
        · omega
        · subst h
          rw [upd_same] at hci; rw [upd_ne _ _ h'] at hcj; rw [upd_ne _ _ h'] at hj
          cases hci
          exact absurd rfl (inv.pendUniq j k w2 v hj hcj)
        · subst h'
          rw [upd_same] at hcj; rw [upd_ne _ _ h] at hci; rw [upd_ne _ _ h] at hi
          cases hcj
          exact absurd rfl (inv.pendUniq i k v2 v hi hci)
        · rw [upd_ne _ _ h] at hci; rw [upd_ne _ _ h'] at hcj
          rw [upd_ne _ _ h] at hi; rw [upd_ne _ _ h'] at hj
          exact inv.uniq i j k2 v2 w2 hi hj hci hcj
      · intro i k2 v2 w2 hi hci he; cases he
      · have := inv.count
        simp only [Option.toList_some, List.length_singleton, Option.toList_none, List.length_nil] at this ⊢
        rw [cnt_upd_true hxm hfalse]
        omega

theorem rehashLoop_spec {hash : K → Nat} {n m total : Nat} {items : K → V → Prop} (hp : ∃ e, m = 2^e) (hnm : n ≤ m)
    (htot : total < m) :
    ∀ c j (r : Rehash K V), j + c = n → RInv hash n m total items r none → (∀ i, i < j → r.oldLive i = false) →
      ∃ r', rehashLoop hash n m c j r = some r' ∧ RInv hash n m total items r' none ∧ ∀ i, r'.oldLive i = false := by
  intro c
  induction c with
  | zero =>
    intro j r hj inv hd
    refine ⟨r, rfl, inv, ?_⟩
    intro i
    cases hi : r.oldLive i with
    | false => rfl
    | true =>
      have := inv.oldlt i hi
      have := hd i (by omega)
      simp_all
  | succ c ih =>
    intro j r hj inv hd
    rw [rehashLoop]
    by_cases hl : r.oldLive j = true
    · obtain ⟨⟨k, v⟩, hcell⟩ := inv.cellOld j hl
      have hjn := inv.oldlt j hl
      have hnf : r.newFull j = false := by
        cases h : r.newFull j with
        | false => rfl
        | true => have := inv.disj j h; simp_all
      have inv' : RInv hash n m total items { r with oldLive := upd r.oldLive j false } (some (k, v)) := by
        constructor
        · intro i hi
          simp only at hi
          by_cases h : i = j
          · subst h; rw [upd_same] at hi; cases hi
          · rw [upd_ne _ _ h] at hi; exact inv.oldlt i hi
        · exact inv.newlt
        · intro i hi
          simp only at hi ⊢
          by_cases h : i = j
          · subst h; rw [upd_same]
          · rw [upd_ne _ _ h]; exact inv.disj i hi
        · intro i hi
          simp only at hi ⊢
          by_cases h : i = j
          · subst h; rw [upd_same] at hi; cases hi
          · rw [upd_ne _ _ h] at hi; exact inv.cellOld i hi
        · exact inv.cellNew
        · intro k2 v2
          rw [inv.items_iff]
          simp only
          constructor
          · rintro (⟨i, hi, hci⟩ | hpe)
            · by_cases h : i = j
              · subst h; rw [hcell] at hci; right; exact hci
              · left; refine ⟨i, ?_, hci⟩
                rw [upd_ne _ _ h]; exact hi
            · cases hpe
          · rintro (⟨i, hi, hci⟩ | hpe)
            · left
              by_cases h : i = j
              · subst h; exact ⟨i, Or.inl hl, hci⟩
              · rw [upd_ne _ _ h] at hi; exact ⟨i, hi, hci⟩
            · left; exact ⟨j, Or.inl hl, by rw [hcell]; exact hpe⟩
        · intro i i' k2 v2 w2 hi hi' hci hci'
          simp only at hi hi' hci hci'
          refine inv.uniq i i' k2 v2 w2 ?_ ?_ hci hci'
          · rcases hi with hi | hi
            · left
              by_cases h : i = j
              · subst h; exact hl
              · rwa [upd_ne _ _ h] at hi
            · exact Or.inr hi
          · rcases hi' with hi | hi
            · left
              by_cases h : i' = j
              · subst h; exact hl
              · rwa [upd_ne _ _ h] at hi
            · exact Or.inr hi
        · intro i k2 v2 w2 hi hci he
          simp only at hi hci
          cases he
          have h : i ≠ j := by
            rintro rfl
            rw [upd_same, hnf] at hi
            simp at hi
          rw [upd_ne _ _ h] at hi
          exact h (inv.uniq i j k v2 v hi (Or.inl hl) hci hcell)
        · have := inv.count
          simp only [Option.toList_some, List.length_singleton, Option.toList_none, List.length_nil] at this ⊢
          have := cnt_upd_false (p := r.oldLive) hjn hl
          omega
      obtain ⟨r1, h1, h2, h3⟩ := placeLoop_spec hp hnm htot (n+1) _ (k, v) inv' (by
        have := cnt_le (upd r.oldLive j false) n
        simp only; omega)
      simp only [hl, if_true, hcell, h1]
      refine ih (j+1) r1 (by omega) h2 ?_
      intro i hi
      cases hx : r1.oldLive i with
      | false => rfl
      | true =>
        have := h3 i hx
        simp only at this
        by_cases h : i = j
        · subst h; rw [upd_same] at this; cases this
        · rw [upd_ne _ _ h, hd i (by omega)] at this; cases this
    · have hl' : r.oldLive j = false := by simpa using hl
      simp only [hl', Bool.false_eq_true, if_false]
      refine ih (j+1) r (by omega) inv ?_
      intro i hi
      by_cases h : i = j
      · subst h; exact hl'
      · exact hd i (by omega)

/-- `kh_resize` terminates, keeps the invariant and the associations, and makes room. -/
theorem WF.resize_spec {hash : K → Nat} {h : KH K V} (w : WF hash h) :
    ∃ h', h.resize hash = some h' ∧ WF hash h' ∧ h'.nOcc < h'.ub ∧ h'.nb ≠ 0 ∧ (∀ k v, h'.Has k v ↔ h.Has k v) ∧
      h'.size = h.size ∧ h'.nb = (if h.nb ≠ 0 then h.nb * 2 else 4) := by
  have hm : ∃ m, m = (if h.nb ≠ 0 then h.nb * 2 else 4) ∧ (∃ e, 2 ≤ e ∧ m = 2^e) ∧ h.nb ≤ m ∧
      h.size < upperBound m ∧ h.size < m ∧ m ≠ 0 := by
    refine ⟨_, rfl, ?_, ?_, ?_, ?_, ?_⟩
    · rcases w.pow with h0 | ⟨e, he, h0⟩
      · exact ⟨2, by omega, by simp [h0]⟩
      · refine ⟨e+1, by omega, ?_⟩
        have : h.nb ≠ 0 := by rw [h0]; simp
        rw [if_pos this, h0, Nat.pow_succ]
    · split <;> omega
    · have h1 := w.size_le_occ; have h2 := w.le; rw [w.ub] at h2
      split
      · rename_i h0
        have h4 := (w.pow2 h0).2
        unfold upperBound at *; omega
      · rename_i h0
        have : h.nb = 0 := by omega
        rw [this] at h2
        unfold upperBound at *; omega
    · have h1 := w.size_le_occ; have h2 := w.le; rw [w.ub] at h2
      split
      · rename_i h0
        have h4 := upperBound_lt (w.pow2 h0).2
        omega
      · rename_i h0
        have : h.nb = 0 := by omega
        rw [this] at h2
        unfold upperBound at h2; omega
    · split <;> omega
  obtain ⟨m, hme, ⟨e, he2, hme2⟩, hnm, hub, hsz, hm0⟩ := hm
  have inv0 : RInv hash h.nb m h.size h.Has
      { oldLive := fun i => (h.slot i).isLive, newFull := fun _ => false, cell := fun i => (h.slot i).item } none := by
    have livekv : ∀ i, (h.slot i).isLive = true → ∃ k v, h.slot i = .live k v := by
      intro i hi
      cases hs : h.slot i <;> simp_all [Slot.isLive]
    have cellkv : ∀ i k v, (h.slot i).item = some (k, v) → h.slot i = .live k v := by
      intro i k v hi
      cases hs : h.slot i <;> simp_all [Slot.item]
    constructor
    · intro i hi
      obtain ⟨k, v, hs⟩ := livekv i hi
      exact w.lt hs
    · intro i hi; cases hi
    · intro i hi; cases hi
    · intro i hi
      obtain ⟨k, v, hs⟩ := livekv i hi
      exact ⟨(k, v), by simp [hs, Slot.item]⟩
    · intro i hi; cases hi
    · intro k v
      constructor
      · rintro ⟨i, hi⟩
        left; exact ⟨i, Or.inl (by simp [hi, Slot.isLive]), by simp [hi, Slot.item]⟩
      · rintro (⟨i, _, hci⟩ | hpe)
        · exact ⟨i, cellkv i k v hci⟩
        · cases hpe
    · intro i j k v w' _ _ hci hcj
      exact w.uniq i j k v w' (cellkv _ _ _ hci) (cellkv _ _ _ hcj)
    · intro i k v w' _ _ he; cases he
    · simp only [cnt_false, Option.toList_none, List.length_nil]
      rw [w.size]; omega
  obtain ⟨r, hr, inv, hold⟩ := rehashLoop_spec ⟨e, hme2⟩ hnm hsz h.nb 0 _ (by omega) inv0 (by omega)
  have hslotnew : ∀ i k v, (if i < m && r.newFull i then
        (match r.cell i with | some kv => Slot.live kv.1 kv.2 | none => .empty) else .empty) = .live k v ↔
      (r.newFull i = true ∧ r.cell i = some (k, v)) := by
    intro i k v
    constructor
    · intro hi
      split at hi
      · rename_i hc
        simp only [Bool.and_eq_true, decide_eq_true_eq] at hc
        refine ⟨hc.2, ?_⟩
        cases hcell : r.cell i with
        | none => rw [hcell] at hi; cases hi
        | some kv => rw [hcell] at hi; simp only at hi; cases hi; rfl
      · cases hi
    · rintro ⟨h1, h2⟩
      rw [if_pos (by simp [h1, inv.newlt i h1]), h2]
  have hisLive : ∀ i, (if i < m && r.newFull i then
        (match r.cell i with | some kv => Slot.live kv.1 kv.2 | none => .empty) else .empty).isLive = r.newFull i := by
    intro i
    cases hf : r.newFull i with
    | false => simp [Slot.isLive]
    | true =>
      obtain ⟨k, v, hc, _⟩ := inv.cellNew i hf
      simp [hc, Slot.isLive, inv.newlt i hf]
  have hisOcc : ∀ i, (if i < m && r.newFull i then
        (match r.cell i with | some kv => Slot.live kv.1 kv.2 | none => .empty) else .empty).isOcc = r.newFull i := by
    intro i
    cases hf : r.newFull i with
    | false => simp [Slot.isOcc]
    | true =>
      obtain ⟨k, v, hc, _⟩ := inv.cellNew i hf
      simp [hc, Slot.isOcc, inv.newlt i hf]
  have hcount : cnt r.newFull m = h.size := by
    have := inv.count
    rw [cnt_eq_zero (p := r.oldLive) (fun i _ => hold i)] at this
    simpa using this
  refine ⟨{ nb := m, size := h.size, nOcc := h.size, ub := upperBound m,
             slot := fun i => if i < m && r.newFull i then
                                (match r.cell i with | some kv => .live kv.1 kv.2 | none => .empty)
                              else .empty }, ?_, ?_, ?_, ?_, ?_, rfl, hme⟩
  · unfold KH.resize
    simp only
    rw [← hme, if_neg (by omega), hr]
    rfl
  · constructor
    · exact Or.inr ⟨e, he2, hme2⟩
    · rfl
    · simp only [hisLive]; exact hcount.symm
    · simp only [hisOcc]; exact hcount.symm
    · simp only; omega
    · intro i hi
      simp only at hi ⊢
      rw [if_neg (by simp; omega)]
    · intro i k v hs
      simp only at hs
      rw [hslotnew] at hs
      obtain ⟨k2, v2, hc, t, h1, h2⟩ := inv.cellNew i hs.1
      rw [hs.2] at hc
      cases hc
      refine ⟨t, h1, fun s hs' => ?_⟩
      simp only [hisOcc]
      exact h2 s hs'
    · intro i j k v1 v2 h1 h2
      simp only at h1 h2
      rw [hslotnew] at h1 h2
      exact inv.uniq i j k v1 v2 (Or.inr h1.1) (Or.inr h2.1) h1.2 h2.2
  · exact hub
  · exact hm0
  · intro k v
    rw [inv.items_iff k v]
    unfold KH.Has
    simp only [hslotnew]
    constructor
    · rintro ⟨i, h1, h2⟩; left; exact ⟨i, Or.inr h1, h2⟩
    · rintro (⟨i, h1 | h1, h2⟩ | h1)
      · rw [hold i] at h1; cases h1
      · exact ⟨i, h1, h2⟩
      · cases h1

theorem WF.new (hash : K → Nat) : WF hash (KH.new : KH K V) := by
  constructor <;> simp [KH.new, cnt, upperBound]

/-- `kh_put` + value store: terminates, keeps the invariant, updates exactly the given key. -/
theorem WF.put_spec [DecidableEq K] {hash : K → Nat} {h : KH K V} (w : WF hash h) (key : K) (v : V) :
    ∃ h', h.put hash key v = some h' ∧ WF hash h' ∧
      ∀ k' v', h'.Has k' v' ↔ (k' = key ∧ v' = v) ∨ (k' ≠ key ∧ h.Has k' v') := by
  have step : ∀ h1 : KH K V, WF hash h1 → h1.nOcc < h1.ub → h1.nb ≠ 0 → (∀ k v, h1.Has k v ↔ h.Has k v) →
      ∃ h', (match h1.putFind hash h1.nb key with | none => none | some x => some (h1.putAt x key v)) = some h' ∧
        WF hash h' ∧ ∀ k' v', h'.Has k' v' ↔ (k' = key ∧ v' = v) ∨ (k' ≠ key ∧ h.Has k' v') := by
    intro h1 w1 hroom hnz hhas
    obtain ⟨t, hf, hocc, hx⟩ := w1.putFind_spec hnz key
    obtain ⟨w2, hh⟩ := w1.putAt_spec hroom hnz v hocc hx
    refine ⟨_, by rw [hf], w2, ?_⟩
    intro k' v'
    rw [hh, hhas]
  unfold KH.put
  by_cases hfull : h.nOcc ≥ h.ub
  · obtain ⟨h1, hr, w1, hroom, hnz, hhas, _⟩ := w.resize_spec
    rw [if_pos hfull, hr]
    exact step h1 w1 hroom hnz hhas
  · rw [if_neg hfull]
    refine step h w (by omega) ?_ (fun _ _ => Iff.rfl)
    intro h0
    have := w.ub
    rw [h0] at this
    simp [upperBound] at this
    omega

theorem WF.has_unique {hash : K → Nat} {h : KH K V} (w : WF hash h) {k : K} {v v' : V} (h1 : h.Has k v) (h2 : h.Has k v') :
    v = v' := by
  obtain ⟨i, hi⟩ := h1
  obtain ⟨j, hj⟩ := h2
  have := w.uniq _ _ _ _ _ hi hj
  subst this
  rw [hi] at hj; cases hj; rfl

theorem WF.at_spec [DecidableEq K] {hash : K → Nat} {h : KH K V} (w : WF hash h) (key : K) :
    ∃ o, h.at hash key = some o ∧ ∀ v, o = some v ↔ h.Has key v := by
  obtain ⟨x, hx, h1 | ⟨h1, h2⟩⟩ := w.get_spec key
  · obtain ⟨v, hlt, hs⟩ := h1
    refine ⟨some v, ?_, ?_⟩
    · simp only [KH.at, hx]; rw [if_pos (by omega), hs]
    · intro v'
      constructor
      · intro he; cases he; exact ⟨x, hs⟩
      · intro hh; rw [w.has_unique hh ⟨x, hs⟩]
  · refine ⟨none, ?_, ?_⟩
    · simp only [KH.at, hx]; rw [if_neg (by omega)]
    · intro v
      constructor
      · intro he; cases he
      · intro hh; exact absurd hh (h2 v)

/-- `kh_del` on a live bucket. -/
theorem WF.delAt_spec {hash : K → Nat} {h : KH K V} (w : WF hash h) {x : Nat} {key : K} {v : V}
    (hs : h.slot x = .live key v) :
    WF hash (h.delAt x) ∧ ∀ k' v', (h.delAt x).Has k' v' ↔ (k' ≠ key ∧ h.Has k' v') := by
  have hlt := w.lt hs
  have hd : h.delAt x = { h with slot := upd h.slot x .del, size := h.size - 1 } := by
    unfold KH.delAt; rw [if_pos (by omega), hs]
  rw [hd]
  have hoccsame : (fun i => (upd h.slot x Slot.del i).isOcc) = fun i => (h.slot i).isOcc := by
    rw [comp_upd Slot.isOcc]
    rw [show (Slot.del : Slot K V).isOcc = (fun i => (h.slot i).isOcc) x by simp [hs, Slot.isOcc]]
    exact upd_self _ _
  have hoccsame' : ∀ i, (upd h.slot x Slot.del i).isOcc = (h.slot i).isOcc := fun i => congrFun hoccsame i
  constructor
  · constructor
    · exact w.pow
    · exact w.ub
    · show h.size - 1 = cnt (fun i => (upd h.slot x Slot.del i).isLive) h.nb
      rw [comp_upd Slot.isLive, show (Slot.del : Slot K V).isLive = false from rfl]
      have := cnt_upd_false (p := fun i => (h.slot i).isLive) hlt (by simp [hs, Slot.isLive])
      have := w.size
      omega
    · show h.nOcc = cnt (fun i => (upd h.slot x Slot.del i).isOcc) h.nb
      rw [hoccsame]; exact w.occ
    · exact w.le
    · intro i hi
      show upd h.slot x .del i = .empty
      rw [upd_ne _ _ (by simp only at hi; omega)]
      exact w.out i hi
    · intro i k v' hi
      have hi' : upd h.slot x .del i = .live k v' := hi
      have hne : i ≠ x := by rintro rfl; rw [upd_same] at hi'; cases hi'
      rw [upd_ne _ _ hne] at hi'
      obtain ⟨t, h1, h2⟩ := w.path i k v' hi'
      exact ⟨t, h1, fun s hs => by show (upd h.slot x .del _).isOcc = true; rw [hoccsame']; exact h2 s hs⟩
    · intro i j k v1 v2 h1 h2
      have h1' : upd h.slot x .del i = .live k v1 := h1
      have h2' : upd h.slot x .del j = .live k v2 := h2
      have hne : i ≠ x := by rintro rfl; rw [upd_same] at h1'; cases h1'
      have hne' : j ≠ x := by rintro rfl; rw [upd_same] at h2'; cases h2'
      rw [upd_ne _ _ hne] at h1'; rw [upd_ne _ _ hne'] at h2'
      exact w.uniq i j k v1 v2 h1' h2'
  · intro k' v'
    constructor
    · rintro ⟨i, hi⟩
      have hi' : upd h.slot x .del i = .live k' v' := hi
      have hne : i ≠ x := by rintro rfl; rw [upd_same] at hi'; cases hi'
      rw [upd_ne _ _ hne] at hi'
      refine ⟨?_, i, hi'⟩
      rintro rfl
      exact hne (w.uniq _ _ _ _ _ hi' hs)
    · rintro ⟨hne, i, hi⟩
      refine ⟨i, ?_⟩
      show upd h.slot x .del i = .live k' v'
      rw [upd_ne]
      · exact hi
      · rintro rfl; rw [hs] at hi; cases hi; exact hne rfl

theorem WF.remove_spec [DecidableEq K] {hash : K → Nat} {h : KH K V} (w : WF hash h) (key : K) :
    ∃ h', h.remove hash key = some h' ∧ WF hash h' ∧ ∀ k' v', h'.Has k' v' ↔ (k' ≠ key ∧ h.Has k' v') := by
  obtain ⟨x, hx, h1 | ⟨h1, h2⟩⟩ := w.get_spec key
  · obtain ⟨v, hlt, hs⟩ := h1
    refine ⟨h.delAt x, ?_, w.delAt_spec hs⟩
    simp only [KH.remove, hx]; rw [if_pos (by omega)]
  · refine ⟨h, ?_, w, ?_⟩
    · simp only [KH.remove, hx]; rw [if_neg (by omega)]
    · intro k' v'
      constructor
      · intro hh
        refine ⟨?_, hh⟩
        rintro rfl
        exact h2 v' hh
      · exact fun hh => hh.2

end Potion
