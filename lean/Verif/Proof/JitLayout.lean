import Verif.Proof.JitUnit
/-!
Where the code of each instruction ends up, and what the jump displacements are.
-/
namespace Potion.Jit
open Potion Potion.Vm

theorem at_iff {code p} {bs : List Byte} : At code p bs ↔ ∀ i, i < bs.length → code[p + i]? = bs[i]? := by
  constructor
  · rintro ⟨t, h⟩ i hi
    rw [← List.getElem?_drop, h, List.getElem?_append_left hi]
  · intro h
    refine ⟨(code.drop p).drop bs.length, ?_⟩
    apply List.ext_getElem?
    intro i
    by_cases hi : i < bs.length
    · rw [List.getElem?_append_left hi, List.getElem?_drop, h i hi]
    · rw [List.getElem?_append_right (by omega), List.getElem?_drop, List.getElem?_drop, List.getElem?_drop]
      congr 1; omega

theorem At.append {code p bs} (h : At code p bs) (c : List Byte) : At (code ++ c) p bs := by
  rw [at_iff] at h ⊢
  intro i hi
  have := h i hi
  rw [List.getElem?_append_left]
  · exact this
  · rw [List.getElem?_eq_getElem hi] at this
    exact (List.getElem?_eq_some_iff.mp this).1

theorem at_end (code bs : List Byte) : At (code ++ bs) code.length bs := ⟨[], by simp⟩

theorem At.both {code p a b} (h1 : At code p a) (h2 : At code (p + a.length) b) : At code p (a ++ b) := by
  rw [at_iff] at *
  intro i hi
  by_cases h : i < a.length
  · rw [List.getElem?_append_left h, h1 i h]
  · rw [List.getElem?_append_right (by omega), ← h2 (i - a.length) (by simp at hi; omega)]
    congr 1; omega

/-- Writing into the code. -/
theorem write_at {code code' : List Byte} {q : Nat} {w : List Byte} (h : Bytes.writeAt code q w = some code') :
    code'.length = code.length ∧ At code' q w ∧
      ∀ p bs, At code p bs → (p + bs.length ≤ q ∨ q + w.length ≤ p) → At code' p bs := by
  unfold Bytes.writeAt at h
  split at h
  · rename_i hq
    obtain rfl := Option.some.inj h
    refine ⟨by simp; omega, ?_, ?_⟩
    · rw [at_iff]
      intro i hi
      rw [List.append_assoc, List.getElem?_append_right (by simp; omega), List.length_take,
        List.getElem?_append_left (by omega)]
      congr 1; omega
    · intro p bs hb hd
      rw [at_iff] at hb ⊢
      intro i hi
      rw [← hb i hi]
      rcases hd with hd | hd
      · rw [List.append_assoc, List.getElem?_append_left (by simp; omega), List.getElem?_take, if_pos (by omega)]
      · rw [List.getElem?_append_right (by simp; omega), List.getElem?_drop]
        congr 1; simp; omega
  · cases h

theorem patch_spec (pos : Nat) (js : List (Nat × Nat)) : ∀ (code code' : List Byte), patch pos js code = some code' →
    (∀ x ∈ js, ∀ y ∈ js, x.1 = y.1 ∨ x.1 + 4 ≤ y.1 ∨ y.1 + 4 ≤ x.1) →
    code'.length = code.length ∧
    (∀ p bs, At code p bs → (∀ x ∈ js, p + bs.length ≤ x.1 ∨ x.1 + 4 ≤ p ∨ x.2 ≠ pos) → At code' p bs) ∧
    ∀ x ∈ js, x.2 = pos → At code' x.1 (asmI ((code.length : Int) - (x.1 + 4))) := by
  induction js with
  | nil =>
    intro code code' h _
    obtain rfl := Option.some.inj h
    exact ⟨rfl, fun p bs h _ => h, fun x hx => by cases hx⟩
  | cons x js ih =>
    intro code code' h sep
    obtain ⟨frm, to⟩ := x
    simp only [patch] at h
    have sep' : ∀ x ∈ js, ∀ y ∈ js, x.1 = y.1 ∨ x.1 + 4 ≤ y.1 ∨ y.1 + 4 ≤ x.1 :=
      fun x hx y hy => sep x (List.mem_cons_of_mem _ hx) y (List.mem_cons_of_mem _ hy)
    split at h
    · rename_i ht
      split at h
      · cases h
      · rename_i c1 hc
        obtain ⟨l1, w1, k1⟩ := write_at hc
        rw [asmI_length] at k1
        obtain ⟨l2, k2, w2⟩ := ih c1 code' h sep'
        refine ⟨l2.trans l1, fun p bs hb hd => ?_, fun y hy hyp => ?_⟩
        · refine k2 p bs (k1 p bs hb ?_) (fun x hx => hd x (List.mem_cons_of_mem _ hx))
          rcases hd (frm, to) (List.mem_cons_self ..) with h | h | h
          · exact .inl h
          · exact .inr h
          · exact absurd ht h
        · rw [l1] at w2
          have key : ∀ y ∈ js, y.2 = pos → At code' y.1 (asmI ((code.length : Int) - (y.1 + 4))) := w2
          rcases List.mem_cons.mp hy with rfl | hy
          · by_cases hx : ∃ y ∈ js, y.2 = pos ∧ y.1 = frm
            · obtain ⟨y, hy, h2, h1⟩ := hx
              have := w2 y hy h2
              rw [h1] at this
              exact this
            · refine k2 frm _ w1 (fun y hy => ?_)
              rw [asmI_length]
              rcases sep (frm, to) (List.mem_cons_self ..) y (List.mem_cons_of_mem _ hy) with h | h | h
              · right; right; intro e; exact hx ⟨y, hy, e, h.symm⟩
              · exact .inl h
              · exact .inr (.inl h)
          · exact w2 y hy hyp
    · rename_i ht
      obtain ⟨l2, k2, w2⟩ := ih code code' h sep'
      refine ⟨l2, fun p bs hb hd => k2 p bs hb (fun x hx => hd x (List.mem_cons_of_mem _ hx)), fun y hy hyp => ?_⟩
      rcases List.mem_cons.mp hy with rfl | hy
      · exact absurd hyp ht
      · exact w2 y hy hyp

/-- Length of the code of an instruction. -/
def blockLen (E : Env) (f : Proto) (i : Ins) : Nat :=
  match jump i with
  | some (pre, _) => pre.length + 4
  | none => match plain E f i with
    | some bs => bs.length
    | none => 0

/-- Offset of the code of instruction `n`. -/
def off (E : Env) (f : Proto) : Nat → Nat
  | 0 => (prologue f).length
  | n+1 => off E f n + blockLen E f (f.code n)

variable {E : Env} {f : Proto}

theorem off_mono {i j : Nat} (h : i ≤ j) : off E f i ≤ off E f j := by
  induction j with
  | zero => rw [show i = 0 by omega]; exact Nat.le_refl _
  | succ n ih =>
    rcases Nat.lt_or_ge i (n + 1) with h' | h'
    · exact Nat.le_trans (ih (by omega)) (Nat.le_add_right _ _)
    · rw [show i = n + 1 by omega]; exact Nat.le_refl _

theorem off_jump {j pre d} (h : jump (f.code j) = some (pre, d)) : off E f (j + 1) = off E f j + pre.length + 4 := by
  simp only [off, blockLen, h]; omega

/-- Displacement of a jump over `d` instructions. -/
def dispOf (E : Env) (f : Proto) (j : Nat) (d : Int) : Int := (off E f ((j : Int) + d + 1).toNat : Int) - off E f (j + 1)

structure Inv (E : Env) (f : Proto) (pos : Nat) (g : Gen) : Prop where
  len : g.code.length = off E f pos
  offs : g.offs = (List.range pos).map (off E f)
  pro : At g.code 0 (prologue f)
  plain : ∀ j, j < pos → jump (f.code j) = none → ∃ bs, plain E f (f.code j) = some bs ∧ At g.code (off E f j) bs
  pre : ∀ j, j < pos → ∀ pre d, jump (f.code j) = some (pre, d) → At g.code (off E f j) pre
  disp : ∀ j, j < pos → ∀ pre d, jump (f.code j) = some (pre, d) → (d < 0 ∨ ((j : Int) + d + 1).toNat < pos) →
    At g.code (off E f j + pre.length) (asmI (dispOf E f j d))
  form : ∀ x ∈ g.jmps, ∃ j pre d, j < pos ∧ jump (f.code j) = some (pre, d) ∧ 0 ≤ d ∧
    x = (off E f j + pre.length, ((j : Int) + d + 1).toNat)
  here : ∀ j, j < pos → ∀ pre d, jump (f.code j) = some (pre, d) → 0 ≤ d →
    (off E f j + pre.length, ((j : Int) + d + 1).toNat) ∈ g.jmps
  back : ∀ j, j < pos → ∀ pre d, jump (f.code j) = some (pre, d) → 0 ≤ (j : Int) + d + 1

theorem Inv.sep {pos g} (v : Inv E f pos g) : ∀ x ∈ g.jmps, ∀ y ∈ g.jmps, x.1 = y.1 ∨ x.1 + 4 ≤ y.1 ∨ y.1 + 4 ≤ x.1 := by
  intro x hx y hy
  obtain ⟨i, p1, d1, hi, e1, _, rfl⟩ := v.form x hx
  obtain ⟨j, p2, d2, hj, e2, _, rfl⟩ := v.form y hy
  have o1 := off_jump (E := E) e1
  have o2 := off_jump (E := E) e2
  rcases Nat.lt_trichotomy i j with h | h | h
  · have := off_mono (E := E) (f := f) (show i + 1 ≤ j by omega)
    right; left; simp only; omega
  · subst h; rw [e1] at e2; cases e2; exact .inl rfl
  · have := off_mono (E := E) (f := f) (show j + 1 ≤ i by omega)
    right; right; simp only; omega

/-- After filling in the jumps to `pos`. -/
theorem Inv.patched {pos g code} (v : Inv E f pos g) (h : patch pos g.jmps g.code = some code) :
    Inv E f pos { g with code := code } ∧ ∀ j, j < pos → ∀ pre d, jump (f.code j) = some (pre, d) →
      ((j : Int) + d + 1).toNat = pos → At code (off E f j + pre.length) (asmI (dispOf E f j d)) := by
  obtain ⟨hl, keep, wr⟩ := patch_spec pos g.jmps g.code code h v.sep
  have out : ∀ j, j < pos → ∀ p bs, off E f j ≤ p → p + bs.length ≤ off E f (j + 1) →
      (∀ pre d, jump (f.code j) = some (pre, d) → p + bs.length ≤ off E f j + pre.length ∨ d < 0 ∨ ((j : Int) + d + 1).toNat ≠ pos) →
      At g.code p bs → At code p bs := by
    intro j hj p bs h1 h2 h3 hat
    refine keep p bs hat (fun x hx => ?_)
    obtain ⟨i, p1, d1, hi, e1, hd1, rfl⟩ := v.form x hx
    have o1 := off_jump (E := E) e1
    rcases Nat.lt_trichotomy i j with h | h | h
    · have := off_mono (E := E) (f := f) (show i + 1 ≤ j by omega)
      right; left; simp only; omega
    · subst h
      rcases h3 p1 d1 e1 with h | h | h
      · exact .inl h
      · omega
      · exact .inr (.inr h)
    · have := off_mono (E := E) (f := f) (show j + 1 ≤ i by omega)
      left; simp only; omega
  refine ⟨⟨hl.trans v.len, v.offs, ?_, ?_, ?_, ?_, v.form, v.here, v.back⟩, ?_⟩
  · refine keep _ _ v.pro (fun x hx => ?_)
    obtain ⟨i, p1, d1, hi, e1, hd1, rfl⟩ := v.form x hx
    have := off_mono (E := E) (f := f) (show 0 ≤ i by omega)
    left; simp only [off] at this ⊢; omega
  · intro j hj hn
    obtain ⟨bs, e, ha⟩ := v.plain j hj hn
    refine ⟨bs, e, out j hj _ bs (Nat.le_refl _) ?_ (fun pre d e => by rw [hn] at e; cases e) ha⟩
    simp only [off, blockLen, hn, e]; omega
  · intro j hj pre d e
    have o1 := off_jump (E := E) e
    refine out j hj _ pre (Nat.le_refl _) (by omega) (fun pre' d' e' => ?_) (v.pre j hj pre d e)
    rw [e] at e'; cases e'; exact .inl (Nat.le_refl _)
  · intro j hj pre d e ht
    have o1 := off_jump (E := E) e
    refine out j hj _ _ (by omega) (by rw [asmI_length]; omega) (fun pre' d' e' => ?_) (v.disp j hj pre d e ht)
    rw [e] at e'; cases e'; right; rcases ht with h | h
    · exact .inl h
    · right; omega
  · intro j hj pre d e ht
    have o1 := off_jump (E := E) e
    have hd : 0 ≤ d := by omega
    have := wr _ (v.here j hj pre d e hd) ht
    unfold dispOf
    rw [ht, o1, ← v.len]
    push_cast at this ⊢
    exact this

theorem Inv.emit {pos g g'} (v : Inv E f pos g) (h : emit E f pos g = some g') : Inv E f (pos + 1) g' := by
  unfold Jit.emit at h
  split at h
  · split at h
    · cases h
    · rename_i code hp
      obtain ⟨v1, v2⟩ := v.patched hp
      have hlen : code.length = off E f pos := v1.len
      have disp1 : ∀ j, j < pos → ∀ pre d, jump (f.code j) = some (pre, d) → (d < 0 ∨ ((j : Int) + d + 1).toNat < pos + 1) →
          At code (off E f j + pre.length) (asmI (dispOf E f j d)) := by
        intro j hj pre d e ht
        by_cases h2 : ((j : Int) + d + 1).toNat = pos
        · exact v2 j hj pre d e h2
        · exact v1.disp j hj pre d e (by omega)
      have hoffs : g.offs ++ [g.code.length] = (List.range (pos + 1)).map (off E f) := by
        rw [List.range_succ, List.map_append, v.offs, v.len]; rfl
      split at h
      · rename_i pre d hj
        unfold tagJmp at h
        have o1 := off_jump (E := E) hj
        have hpre : At (code ++ pre) (off E f pos) pre := by rw [← hlen]; exact at_end _ _
        dsimp only at h
        split at h
        · rename_i hd
          split at h
          · obtain rfl := Option.some.inj h
            have hd : 0 ≤ d := by omega
            refine ⟨?_, hoffs, (v1.pro.append _).append _, ?_, ?_, ?_, ?_, ?_, ?_⟩
            · simp only [List.length_append, asmI_length]; omega
            · intro j hj' hn
              obtain ⟨bs, e, ha⟩ := v1.plain j (by rcases Nat.lt_or_ge j pos with h | h; exact h; rw [show j = pos by omega, hj] at hn; cases hn) hn
              exact ⟨bs, e, (ha.append _).append _⟩
            · intro j hj' pre' d' e
              rcases Nat.lt_or_ge j pos with h | h
              · exact ((v1.pre j h pre' d' e).append _).append _
              · obtain rfl : j = pos := by omega
                rw [hj] at e; cases e
                exact hpre.append _
            · intro j hj' pre' d' e ht
              rcases Nat.lt_or_ge j pos with h | h
              · exact ((disp1 j h pre' d' e ht).append _).append _
              · obtain rfl : j = pos := by omega
                rw [hj] at e; cases e
                omega
            · intro x hx
              rcases List.mem_append.mp hx with hx | hx
              · obtain ⟨j, p1, d1, h1, h2, h3, h4⟩ := v1.form x hx
                exact ⟨j, p1, d1, by omega, h2, h3, h4⟩
              · refine ⟨pos, pre, d, by omega, hj, hd, ?_⟩
                rw [List.mem_singleton.mp hx, List.length_append, hlen]
            · intro j hj' pre' d' e hd'
              rcases Nat.lt_or_ge j pos with h | h
              · exact List.mem_append_left _ (v1.here j h pre' d' e hd')
              · obtain rfl : j = pos := by omega
                rw [hj] at e; cases e
                apply List.mem_append_right
                rw [List.length_append, hlen]
                exact List.mem_singleton.mpr rfl
            · intro j hj' pre' d' e
              rcases Nat.lt_or_ge j pos with h | h
              · exact v1.back j h pre' d' e
              · obtain rfl : j = pos := by omega
                rw [hj] at e; cases e
                omega
          · cases h
        · rename_i hd
          split at h
          · cases h
          · rename_i hb
            rw [hoffs] at h
            have hd : d < 0 := by omega
            have hk : ((pos : Int) + d + 1).toNat < pos + 1 := by omega
            rw [List.getElem?_map, List.getElem?_range (by omega)] at h
            simp only [Option.map_some] at h
            obtain rfl := Option.some.inj h
            refine ⟨?_, rfl, (v1.pro.append _).append _, ?_, ?_, ?_, ?_, ?_, ?_⟩
            · simp only [List.length_append, asmI_length]; omega
            · intro j hj' hn
              obtain ⟨bs, e, ha⟩ := v1.plain j (by rcases Nat.lt_or_ge j pos with h | h; exact h; rw [show j = pos by omega, hj] at hn; cases hn) hn
              exact ⟨bs, e, (ha.append _).append _⟩
            · intro j hj' pre' d' e
              rcases Nat.lt_or_ge j pos with h | h
              · exact ((v1.pre j h pre' d' e).append _).append _
              · obtain rfl : j = pos := by omega
                rw [hj] at e; cases e
                exact hpre.append _
            · intro j hj' pre' d' e ht
              rcases Nat.lt_or_ge j pos with h | h
              · exact ((disp1 j h pre' d' e ht).append _).append _
              · obtain rfl : j = pos := by omega
                rw [hj] at e; cases e
                have := at_end (code ++ pre) (asmI (dispOf E f j d))
                rw [List.length_append, hlen] at this
                unfold dispOf at this ⊢
                rw [o1] at this ⊢
                rw [List.length_append, hlen]
                push_cast at this ⊢
                exact this
            · intro x hx
              obtain ⟨j, p1, d1, h1, h2, h3, h4⟩ := v1.form x hx
              exact ⟨j, p1, d1, by omega, h2, h3, h4⟩
            · intro j hj' pre' d' e hd'
              rcases Nat.lt_or_ge j pos with h | h
              · exact v1.here j h pre' d' e hd'
              · obtain rfl : j = pos := by omega
                rw [hj] at e; cases e
                omega
            · intro j hj' pre' d' e
              rcases Nat.lt_or_ge j pos with h | h
              · exact v1.back j h pre' d' e
              · obtain rfl : j = pos := by omega
                rw [hj] at e; cases e
                omega
      · rename_i hj
        split at h
        · rename_i bs hb
          obtain rfl := Option.some.inj h
          have noj : ∀ {j}, j < pos + 1 → ∀ {x}, jump (f.code j) = some x → j < pos := by
            intro j hj' x e
            rcases Nat.lt_or_ge j pos with h | h
            · exact h
            · rw [show j = pos by omega, hj] at e; cases e
          refine ⟨?_, hoffs, v1.pro.append _, ?_, ?_, ?_, ?_, ?_, ?_⟩
          · simp only [List.length_append, off, blockLen, hj, hb]; omega
          · intro j hj' hn
            rcases Nat.lt_or_ge j pos with h | h
            · obtain ⟨bs, e, ha⟩ := v1.plain j h hn
              exact ⟨bs, e, ha.append _⟩
            · obtain rfl : j = pos := by omega
              refine ⟨bs, hb, ?_⟩
              rw [← hlen]; exact at_end _ _
          · intro j hj' pre' d' e
            exact (v1.pre j (noj hj' e) pre' d' e).append _
          · intro j hj' pre' d' e ht
            exact (disp1 j (noj hj' e) pre' d' e ht).append _
          · intro x hx
            obtain ⟨j, p1, d1, h1, h2, h3, h4⟩ := v1.form x hx
            exact ⟨j, p1, d1, by omega, h2, h3, h4⟩
          · intro j hj' pre' d' e
            exact v1.here j (noj hj' e) pre' d' e
          · intro j hj' pre' d' e
            exact v1.back j (noj hj' e) pre' d' e
        · cases h
  · cases h

theorem Inv.emitAll : ∀ (n pos : Nat) {g g'}, Inv E f pos g → emitAll E f n pos g = some g' → Inv E f (pos + n) g'
  | 0, pos, g, g', v, h => by obtain rfl := Option.some.inj h; exact v
  | n+1, pos, g, g', v, h => by
    simp only [Jit.emitAll] at h
    split at h
    · cases h
    · rename_i g1 h1
      have := Inv.emitAll n (pos + 1) (v.emit h1) h
      rw [show pos + 1 + n = pos + (n + 1) by omega] at this
      exact this

/-- Layout of generated code. -/
theorem jit_layout {code} (h : jit E f = some code)
    (ht : ∀ j, j < f.len → ∀ pre d, jump (f.code j) = some (pre, d) → (j : Int) + d + 1 < f.len) :
    At code 0 (prologue f) ∧ code.length = off E f f.len ∧
      (∀ j, j < f.len → jump (f.code j) = none → ∃ bs, plain E f (f.code j) = some bs ∧ At code (off E f j) bs) ∧
      ∀ j, j < f.len → ∀ pre d, jump (f.code j) = some (pre, d) → 0 ≤ (j : Int) + d + 1 ∧
        At code (off E f j) (pre ++ asmI (dispOf E f j d)) := by
  unfold jit at h
  cases he : Jit.emitAll E f f.len 0 { code := prologue f, offs := [], jmps := [] } with
  | none => rw [he] at h; cases h
  | some g =>
    rw [he] at h
    obtain rfl := Option.some.inj h
    have v0 : Inv E f 0 { code := prologue f, offs := [], jmps := [] } :=
      ⟨rfl, rfl, ⟨[], by simp⟩, fun j h => by omega, fun j h => by omega, fun j h => by omega, (fun x h => by cases h),
        fun j h => by omega, fun j h => by omega⟩
    have v := Inv.emitAll f.len 0 v0 he
    rw [Nat.zero_add] at v
    refine ⟨v.pro, v.len, v.plain, fun j hj pre d e => ?_⟩
    have hb := v.back j hj pre d e
    exact ⟨hb, (v.pre j hj pre d e).both (v.disp j hj pre d e (.inr (by have := ht j hj pre d e; omega)))⟩

end Potion.Jit
