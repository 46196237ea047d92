import Verif.Proof.JitEntry
/-!
Generated code exists, is small, and runs like the interpreter.
-/
namespace Potion.Jit
open Potion Potion.X86 Potion.Vm

variable {E : Env} {f : Proto} {loc : Nat → PN} {H : PN → Prop} {ext : Ext} {code : List Byte}

theorem ldLen_le (a : Int) : ldLen a ≤ 7 := by have := ldLen_cases a; omega

theorem plain_le {i : Ins} {bs : List Byte} (h : plain E f i = some bs) : bs.length ≤ 300 := by
  have h1 := ldLen_le i.a
  have h2 := ldLen_le i.b
  have h3 := ldLen_le (need f - 3)
  have h4 := ldLen_le (need f - 2)
  have h5 := ldLen_le (need f - 1)
  have h6 := ldLen_le (f.stack + i.b)
  have h7 := ldLen_le (lregs f + i.b)
  have h8 := ldLen_le 0
  unfold plain at h
  dsimp only at h
  split at h <;> first
    | (cases h
       (try simp only [math, numcmp, testAsm, refTest, divOps, remOps, shiftOps])
       repeat' split
       all_goals
         simp only [List.length_append, List.length_cons, List.length_nil, movRbp_length, movRbpDx_length, movq_length,
           argO_length, callC_length, asmI_length, asmN_length]
         omega)
    | cases h

theorem jump_le {i : Ins} {pre : List Byte} {d : Int} (h : jump i = some (pre, d)) : pre.length ≤ 30 := by
  have h1 := ldLen_le i.a
  unfold jump at h
  split at h <;> first
    | (cases h
       simp only [List.length_append, List.length_cons, List.length_nil, movRbp_length]
       omega)
    | cases h

theorem off_le (n : Nat) : off E f n ≤ (prologue f).length + 300 * n := by
  induction n with
  | zero => exact Nat.le_refl _
  | succ n ih =>
    have : blockLen E f (f.code n) ≤ 300 := by
      unfold blockLen
      split
      · rename_i pre d h; have := jump_le h; omega
      · split
        · rename_i bs h; exact plain_le h
        · omega
    simp only [off]
    omega

theorem locals_le (ns : List Nat) (k : Nat) : (locals f k ns).length ≤ 11 * ns.length := by
  induction ns generalizing k with
  | nil => simp [locals]
  | cons n ns ih =>
    have := ih (k+1)
    have h1 := ldLen_le (f.stack + n)
    simp only [locals, List.length_append, List.length_cons, argI_length]
    split <;> omega

theorem upvalsAll_le (j : Nat) : ((List.range j).flatMap (upvals f)).length ≤ 21 * j := by
  induction j with
  | zero => simp
  | succ j ih =>
    rw [List.range_succ, List.flatMap_append, List.length_append, List.flatMap_singleton]
    have h1 := ldLen_le (need f - 2)
    have h2 := ldLen_le (lregs f + j)
    have : (upvals f j).length ≤ 21 := by
      unfold upvals
      dsimp only
      split <;>
      · simp only [List.length_append, List.length_cons, List.length_nil, movRbp_length, asmI_length]
        omega
    omega

theorem prologue_le (hf : Simple f) : (prologue f).length < 2^30 := by
  have hno := hasUpvals_false hf
  have h1 := locals_le (f := f) f.params 0
  have h2 := upvalsAll_le (f := f) f.upvalsize
  have h3 := hf.size
  have h4 := hf.params.1
  have h5 : (setup f).length ≤ 11 := by
    unfold setup
    split <;> simp [asmI_length]
  have h6 := ldLen_le (need f - 3)
  have h7 := ldLen_le (need f - 2)
  have h8 := ldLen_le (need f - 1)
  have h9 := ldLen_le 0
  unfold prologue registers
  rw [hno]
  simp only [List.length_append, Bool.false_eq_true, if_false, List.length_nil, argI_length]
  repeat' split
  all_goals omega

theorem emitAll_len : ∀ (n pos : Nat) {g g'}, emitAll E f n pos g = some g' → 0 < n → pos + n ≤ JUMPS_MAX
  | 0, _, _, _, _, h => by omega
  | n+1, pos, g, g', h, _ => by
    simp only [emitAll] at h
    split at h
    · cases h
    · rename_i g1 h1
      unfold emit at h1
      split at h1
      · rename_i hp
        rcases Nat.eq_zero_or_pos n with rfl | hn
        · omega
        · have := emitAll_len n (pos+1) h hn
          omega
      · cases h1

theorem jump_leads {i : Ins} {pre : List Byte} {d : Int} (h : jump i = some (pre, d)) (pos : Nat) : Leads i pos (pos + d + 1) := by
  unfold jump at h
  unfold Leads
  split at h
  · rename_i h1; cases h; rw [h1]
  · rename_i h1; cases h; rw [h1]; exact .inr rfl
  · rename_i h1; cases h; rw [h1]; exact .inr rfl
  · cases h

theorem laid (hf : Simple f) (h : jit E f = some code) : Laid E f code := by
  obtain ⟨h1, h2, h3, h4⟩ := jit_layout h (fun j hj pre d e => (hf.flow j hj _ (jump_leads e j)).2)
  have hl : f.len ≤ JUMPS_MAX := by
    unfold jit at h
    cases he : emitAll E f f.len 0 { code := prologue f, offs := [], jmps := [] } with
    | none => rw [he] at h; cases h
    | some g => have := emitAll_len _ _ he hf.code; omega
  refine ⟨?_, h1, h2, h3, h4⟩
  have := off_le (E := E) (f := f) f.len
  have := prologue_le hf
  unfold JUMPS_MAX at hl
  omega

/-! ### Code is generated for every simple function of at most 1024 instructions -/

theorem writeAt_some (code w : List Byte) (q : Nat) (h : q + w.length ≤ code.length) : ∃ c, Bytes.writeAt code q w = some c ∧ c.length = code.length := by
  refine ⟨code.take q ++ w ++ code.drop (q + w.length), ?_, ?_⟩
  · unfold Bytes.writeAt
    rw [if_pos h]
  · simp only [List.length_append, List.length_take, List.length_drop]
    omega

theorem patch_some (pos : Nat) : ∀ (js : List (Nat × Nat)) (code : List Byte), (∀ x ∈ js, x.1 + 4 ≤ code.length) → ∃ c, patch pos js code = some c
  | [], code, _ => ⟨code, rfl⟩
  | (frm, to) :: js, code, h => by
    simp only [patch]
    split
    · have h0 := h (frm, to) List.mem_cons_self
      obtain ⟨c, h1, h2⟩ := writeAt_some code (asmI ((code.length : Int) - (frm + 4))) frm (by rw [asmI_length]; exact h0)
      rw [h1]
      exact patch_some pos js c (fun x hx => by rw [h2]; exact h x (List.mem_cons_of_mem _ hx))
    · exact patch_some pos js code (fun x hx => h x (List.mem_cons_of_mem _ hx))

theorem plain_some {i : Ins} (h : Operands f i) (hj : jump i = none) : ∃ bs, plain E f i = some bs := by
  unfold Operands at h
  unfold jump at hj
  unfold plain
  cases hop : i.op <;> simp only [hop] at h hj ⊢ <;> first | exact ⟨_, rfl⟩ | exact absurd h id | cases hj

theorem emit_some (hf : Simple f) {pos : Nat} (hp : pos < f.len) (h1 : f.len ≤ JUMPS_MAX) {g : Gen} (v : Inv E f pos g)
    (hl : g.jmps.length ≤ pos) : ∃ g', emit E f pos g = some g' ∧ g'.jmps.length ≤ pos + 1 := by
  have hfit : ∀ x ∈ g.jmps, x.1 + 4 ≤ g.code.length := by
    intro x hx
    obtain ⟨j, pre, d, e1, e2, e3, e4⟩ := v.form x hx
    rw [e4, v.len]
    have := off_jump (E := E) e2
    have := off_mono (E := E) (f := f) (i := j + 1) (j := pos) (by omega)
    dsimp only
    omega
  obtain ⟨c, hc⟩ := patch_some pos g.jmps g.code hfit
  unfold emit
  rw [if_pos (by omega), hc]
  dsimp only
  cases hj : jump (f.code pos) with
  | none =>
    obtain ⟨bs, hb⟩ := plain_some (E := E) (hf.ops pos hp) hj
    rw [hb]
    exact ⟨_, rfl, by dsimp only; omega⟩
  | some x =>
    obtain ⟨pre, d⟩ := x
    have hfl := hf.flow pos hp _ (jump_leads hj pos)
    dsimp only
    unfold tagJmp
    dsimp only
    by_cases hd : (pos : Int) + d ≥ pos
    · rw [if_pos hd, if_pos (by omega)]
      exact ⟨_, rfl, by simp only [List.length_append, List.length_cons, List.length_nil]; omega⟩
    · rw [if_neg hd, if_neg (by omega), List.getElem?_append]
      by_cases hk : ((pos : Int) + d + 1).toNat < g.offs.length
      · rw [if_pos hk, List.getElem?_eq_getElem hk]
        exact ⟨_, rfl, by dsimp only; omega⟩
      · have hlo : g.offs.length = pos := by rw [v.offs]; simp
        rw [if_neg hk, show ((pos : Int) + d + 1).toNat - g.offs.length = 0 by omega]
        exact ⟨_, rfl, by dsimp only; omega⟩

theorem emitAll_some (hf : Simple f) (h1 : f.len ≤ JUMPS_MAX) : ∀ (n pos : Nat), pos + n = f.len → ∀ {g : Gen}, Inv E f pos g →
    g.jmps.length ≤ pos → ∃ g', emitAll E f n pos g = some g'
  | 0, pos, _, g, _, _ => ⟨g, rfl⟩
  | n+1, pos, hn, g, v, hl => by
    obtain ⟨g1, e1, e2⟩ := emit_some hf (by omega) h1 v hl
    obtain ⟨g2, e3⟩ := emitAll_some hf h1 n (pos+1) (by omega) (v.emit e1) e2
    exact ⟨g2, by simp only [emitAll, e1, e3]⟩

theorem jit_some (hf : Simple f) (h1 : f.len ≤ JUMPS_MAX) : ∃ code, jit E f = some code := by
  have v0 : Inv E f 0 { code := prologue f, offs := [], jmps := [] } :=
    ⟨rfl, rfl, ⟨[], by simp⟩, fun j h => by omega, fun j h => by omega, fun j h => by omega, (fun x h => by cases h),
      fun j h => by omega, fun j h => by omega⟩
  obtain ⟨g, hg⟩ := emitAll_some hf h1 f.len 0 (by omega) v0 (by simp)
  exact ⟨g.code, by unfold jit; rw [hg]; rfl⟩

/-! ### Whole runs -/

section
variable {cl tup bp : PN} {sv : PN × PN × PN × PN × PN} {top : PN → PN} {word : PN → Prop}

theorem sim_done (hf : Simple f) (hL : Laid E f code) (hH : Helpers E ext H cl tup word) : ∀ (n : Nat) {s s' : State} {m : Mach} {val : Val},
    Sim E f loc H cl tup bp sv top s m → (∀ t, Visits s t → Tame word t) → s.steps n = some (.done val s') →
    ∃ k m1 m', m.steps ext code k = some (.ret m' (m1.mem (bp + 8#64))) ∧ Rep loc val (m'.regs 0) ∧
      saved m' = (bp + 16#64, m1.mem bp, sv) ∧ m'.mem = m1.mem ∧ ∃ t, Sim E f loc H cl tup bp sv top t m1 ∧ s'.heap = t.heap
  | 0, s, s', m, val, _, _, h => by cases h
  | n+1, s, s', m, val, v, hT, h => by
    simp only [State.steps] at h
    cases hs : s.step with
    | run t =>
      rw [hs] at h
      obtain ⟨k, m1, r, v1⟩ := step_sim hf hL hH v (hT s (.here s)) hs
      obtain ⟨k2, m2, m', a1, a2⟩ := sim_done hf hL hH n v1 (fun u hu => hT u (.next hs hu)) h
      exact ⟨k + 1 + k2, m2, m', by rw [r.steps]; exact a1, a2⟩
    | stuck => rw [hs] at h; cases h
    | done w s1 =>
      rw [hs] at h
      obtain ⟨rfl, rfl⟩ : w = val ∧ s1 = s' := by cases h; exact ⟨rfl, rfl⟩
      obtain ⟨k, m1, m', a1, a2, a3, a4, a5, a6⟩ := done_sim (ext := ext) hf hL v hs
      refine ⟨k + 1, m, m', ?_, a3, a4, a5, s, v, a6⟩
      rw [a1.steps, Mach.steps, a2]

theorem steps_none_mono {m : Mach} : ∀ {n k : Nat}, k ≤ n → m.steps ext code n = none → m.steps ext code k = none := by
  intro n
  induction n generalizing m with
  | zero => intro k hk _; rw [show k = 0 by omega]; rfl
  | succ n ih =>
    intro k hk h
    cases k with
    | zero => rfl
    | succ k =>
      simp only [Mach.steps] at h ⊢
      split at h
      · rename_i m1 hm
        exact ih (by omega) h
      · cases h

theorem sim_forever (hf : Simple f) (hL : Laid E f code) (hH : Helpers E ext H cl tup word) : ∀ (n : Nat) {s : State} {m : Mach},
    Sim E f loc H cl tup bp sv top s m → (∀ t, Visits s t → Tame word t) → s.steps n = none → m.steps ext code n = none
  | 0, s, m, _, _, _ => rfl
  | n+1, s, m, v, hT, h => by
    simp only [State.steps] at h
    cases hs : s.step with
    | run t =>
      rw [hs] at h
      obtain ⟨k, m1, r, v1⟩ := step_sim hf hL hH v (hT s (.here s)) hs
      have := sim_forever hf hL hH n v1 (fun u hu => hT u (.next hs hu)) h
      refine steps_none_mono (n := k + 1 + n) (by omega) ?_
      rw [r.steps]; exact this
    | stuck => rw [hs] at h; cases h
    | done w s1 => rw [hs] at h; cases h

end

end Potion.Jit
