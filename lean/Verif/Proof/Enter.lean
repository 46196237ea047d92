import Verif.Proof.FramesOk
import Mathlib.Data.List.Nodup
/-!
What a new frame holds.
-/
namespace Potion.Vm
open Potion

theorem putAll_at {b : Nat} : ∀ (vs : List Val) (i : Nat) (s s' : State), s.putAll b i vs = some s' →
    s'.f = s.f ∧ s'.cur = s.cur ∧ s'.pos = s.pos ∧ s'.heap = s.heap ∧ (∀ (j : Nat) (v : Val), vs[j]? = some v → s'.stack (b + i + j) = v) ∧
    ∀ k, (k < b + i ∨ b + i + vs.length ≤ k) → s'.stack k = s.stack k
  | [], i, s, s', e => by
    simp only [State.putAll, Option.some.injEq] at e; subst e; simp
  | v :: vs, i, s, s', e => by
    simp only [State.putAll] at e
    split at e
    · rename_i s1 h1
      obtain ⟨k, e1, _, rfl⟩ := wr_some h1
      have e1 : k = b + i := by omega
      subst e1
      obtain ⟨h1, h2, h3, h4, h5, h6⟩ := putAll_at vs _ _ s' e
      refine ⟨h1, h2, h3, h4, fun j w hj => ?_, fun k hk => ?_⟩
      · rcases j with _ | j
        · rw [h6 _ (by omega)]
          simp at hj
          simp [hj]
        · have := h5 j w (by simpa using hj)
          rw [← this]; congr 1; omega
      · simp only [List.length_cons] at hk
        rw [h6 _ (by omega)]
        exact if_neg (by omega)
    · simp at e

theorem putParams_at {b : Nat} : ∀ (vs : List (Nat × Val)) (s s' : State), (vs.map (·.1)).Nodup → s.putParams b vs = some s' →
    s'.f = s.f ∧ s'.cur = s.cur ∧ s'.pos = s.pos ∧ s'.heap = s.heap ∧ (∀ (i : Nat) (v : Val), (i, v) ∈ vs → s'.stack (b + i) = v) ∧
    ∀ k, (∀ i ∈ vs.map (·.1), k ≠ b + i) → s'.stack k = s.stack k
  | [], s, s', hn, e => by
    simp only [State.putParams, Option.some.injEq] at e; subst e; simp
  | (i, v) :: vs, s, s', hn, e => by
    simp only [State.putParams] at e
    simp only [List.map_cons, List.nodup_cons] at hn
    split at e
    · rename_i s1 h1
      obtain ⟨k, e1, _, rfl⟩ := wr_some h1
      have e1 : k = b + i := by omega
      subst e1
      obtain ⟨h1, h2, h3, h4, h5, h6⟩ := putParams_at vs _ s' hn.2 e
      refine ⟨h1, h2, h3, h4, fun j w hj => ?_, fun k hk => ?_⟩
      · rcases List.mem_cons.1 hj with hj | hj
        · obtain ⟨rfl, rfl⟩ := by simpa using hj
          rw [h6 _ (fun i' hi' he => hn.1 (by rwa [show j = i' by omega]))]
          simp
        · exact h5 j w hj
      · rw [h6 k fun i' hi' => hk i' (by simp only [List.map_cons]; exact List.mem_cons_of_mem _ hi')]
        exact if_neg (hk i (by simp))
    · simp at e

theorem enter_at {s s' : State} {self up args} (hn : s.f.params.Nodup) (hl : ∀ i ∈ s.f.params, i < s.f.localsize)
    (hu : up.length = s.f.upvalsize) (ha : args.length = s.f.params.length) (e : s.enter self up args = some s') :
    s'.f = s.f ∧ s'.pos = s.pos ∧ s'.cur = s.cur ∧ s'.heap = s.heap ∧
    (∀ (j : Nat) (v : Val), up[j]? = some v → s'.stack (s.cur + j) = v) ∧
    (∀ (j i : Nat) (v : Val), s.f.params[j]? = some i → args[j]? = some v → s'.stack (s.lbase + i) = v) ∧
    s'.stack (s.rbase - 1) = self ∧ s'.stack s.rbase = self ∧
    ∀ k, s.lbase ≤ k → k < s.rbase - 1 → (∀ i ∈ s.f.params, k ≠ s.lbase + i) → s'.stack k = s.stack k := by
  unfold State.enter at e
  split at e
  · simp at e
  · split at e
    · simp at e
    · rename_i s1 h1
      split at e
      · simp at e
      · rename_i s2 h2
        split at e
        · simp at e
        · rename_i s3 h3
          obtain ⟨k1, e1, _, rfl⟩ := wr_some h1
          obtain ⟨k2, e2, _, rfl⟩ := wr_some h2
          have hr : s.rbase = s.cur + s.f.upvalsize + s.f.localsize + 1 := rfl
          have hlb : s.lbase = s.cur + s.f.upvalsize := rfl
          have q1 : k1 = s.rbase - 1 := by omega
          have q2 : k2 = s.rbase := by
            have : State.rbase { s with stack := fun j => if j = k1 then self else s.stack j } = s.rbase := rfl
            omega
          subst q1 q2
          obtain ⟨a1, a2, a3, a4, a5, a6⟩ := putAll_at _ _ _ _ h3
          have hmap : (s3.f.params.zip args).map (·.1) = s.f.params := by
            rw [a1]
            exact List.map_fst_zip (by show s.f.params.length ≤ args.length; omega)
          obtain ⟨b1, b2, b3, b4, b5, b6⟩ := putParams_at _ _ _ (by rw [hmap]; exact hn) e
          have hlb3 : s3.lbase = s.lbase := by unfold State.lbase; rw [a1, a2]
          rw [hlb3, hmap] at b6
          rw [hlb3] at b5
          have a6' : ∀ k, s.lbase ≤ k → s3.stack k = if k = s.rbase then self else if k = s.rbase - 1 then self else s.stack k :=
            fun k hk => a6 k (.inr (by show s.cur + 0 + up.length ≤ k; omega))
          refine ⟨by rw [b1, a1], by rw [b3, a3], by rw [b2, a2], by rw [b4, a4], fun j v hj => ?_, fun j i v hp hv => ?_, ?_, ?_, fun k h1 h2 h3 => ?_⟩
          · have hlt := (List.getElem?_eq_some_iff.1 hj).1
            rw [b6 _ (fun i _ => by omega)]
            exact a5 j v hj
          · refine b5 i v ?_
            rw [a1]
            refine List.mem_of_getElem? (i := j) ?_
            rw [List.getElem?_zip_eq_some]
            exact ⟨hp, hv⟩
          · rw [b6 _ (fun i hi => by have := hl i hi; omega), a6' _ (by omega)]
            simp
          · rw [b6 _ (fun i hi => by have := hl i hi; omega), a6' _ (by omega)]
            simp
          · rw [b6 k h3, a6' k h1, if_neg (by omega), if_neg (by omega)]

theorem reads_at {s : State} {b : Nat} : ∀ (n : Nat) (i : Int) (vs : List Val), s.reads b n i = some vs → vs.length = n ∧
    ∀ (j : Nat) (v : Val), vs[j]? = some v → s.rd b (i + j) = some v
  | 0, i, vs, e => by
    simp only [State.reads, Option.some.injEq] at e; subst e; simp
  | n+1, i, vs, e => by
    simp only [State.reads] at e
    split at e
    · rename_i v vs' h1 h2
      obtain rfl := by simpa using e
      obtain ⟨h3, h4⟩ := reads_at n _ _ h2
      refine ⟨by simp [h3], fun j w hj => ?_⟩
      rcases j with _ | j
      · obtain rfl := by simpa using hj
        simpa using h1
      · have := h4 j w (by simpa using hj)
        rwa [show i + 1 + (j : Int) = i + ((j + 1 : Nat) : Int) by omega] at this
    · simp at e

end Potion.Vm
