import Verif.Proof.Cont
/-!
C60: continuations. `Fits`, `Returns`, `OpsOk`, `Intact` are in Spec/Cont.lean.
-/
namespace Potion.Cont
open Potion Potion.X86

/-- C60. `here` changes nothing but the new object: registers and the rest of memory are as they were. -/
theorem C60_here {m : Mach} {cstack cc : PN} (F : Fits m cstack cc (words m cstack + 10)) :
    ∃ m1, callcc cstack cc m = some m1 ∧ m1.regs = m.regs ∧
      ∀ a, ¬Within cc (words m cstack + 10) a → m1.mem a = m.mem a := by
  obtain ⟨m1, e, S⟩ := callcc_saved F
  exact ⟨m1, e, S.regs, S.rest⟩

theorem onStack_word {m : Mach} {cstack a : PN} (hb : cstack.toNat < 2 ^ 63 - 8) (hs : (m.regs rsp).toNat % 8 = 0)
    (h : OnStack m cstack a) : ∃ j, j + 1 < words m cstack ∧ a = m.regs rsp + BitVec.ofNat 64 (8 * (j + 1)) := by
  obtain ⟨h1, h2, h3⟩ := h
  refine ⟨(a.toNat - (m.regs rsp).toNat) / 8 - 1, ?_, ?_⟩
  · rw [words]; omega
  · apply BitVec.eq_of_toNat_eq
    rw [off (by omega)]; omega

/-- C60. Calling the continuation `cc` in any later state `m2` (any stack pointer, registers and memory, as long as the
object itself is intact) makes that `here` return once more, with the continuation as its result: the stack from its caller
to the base and the callee-saved registers are as they were when `here` was called. All other memory stays as it is in
`m2`, and the continuation stays intact. -/
theorem C60_resume_partial {m m1 m2 : Mach} {cstack cc : PN} {o0 o1 o2 : Nat}
    (F : Fits m cstack cc (words m cstack + 10)) (e : callcc cstack cc m = some m1) (I : Intact cc (words m cstack) m1 m2)
    (ok : OpsOk o0 o1 o2) :
    ∃ k m3 ra, yield o0 o1 o2 cstack cc k m2 = .asm (some (.ret m3 ra)) ∧ Returns m cstack cc m3 ra ∧
      (∀ a, ¬OnStack m cstack a → a ≠ slot cc 3 → m3.mem a = m2.mem a) ∧ Intact cc (words m cstack) m1 m3 := by
  obtain ⟨m1', e', S⟩ := callcc_saved F
  rw [e] at e'
  cases Option.some.inj e'
  obtain ⟨base, below, frame, ⟨a1, a2, a3, a4⟩, room, apart⟩ := F
  obtain ⟨N, hN⟩ : ∃ N, words m cstack = N + 2 := ⟨words m cstack - 2, by rw [words]; omega⟩
  rw [hN] at room apart
  have top : m.regs rsp + BitVec.ofNat 64 (8 * (N + 1)) = cstack := by
    apply BitVec.eq_of_toNat_eq
    rw [words] at hN
    rw [off (by omega)]; omega
  have sps : (m.regs rsp).toNat + 8 * (N + 1) = cstack.toNat := by rw [words] at hN; omega
  have i0 := (I 0 (by omega) (by omega)).trans S.s0
  have i1 := (I 1 (by omega) (by omega)).trans S.s1
  have i2 := (I 2 (by omega) (by omega)).trans S.s2
  have i4 := (I 4 (by omega) (by omega)).trans S.s4
  have i5 := (I 5 (by omega) (by omega)).trans S.s5
  have i6 := (I 6 (by omega) (by omega)).trans S.s6
  have i7 := (I 7 (by omega) (by omega)).trans S.s7
  have i8 := (I 8 (by omega) (by omega)).trans S.s8
  obtain ⟨k, m3, ra, h, h1, h2, h3, h4, h5, h6, h7, h8, h9, h10, h11⟩ := yield_run ok (cc := cc) (start := m.regs rsp) (n := N + 1)
    (m := m2) (by omega) a4 a2 (by omega) (by omega) (by omega) i1 (by rw [i0, top]) (by rw [i2]; exact below)
    (by rw [i2]; exact a3) (by rw [i2]; omega)
  rw [top] at h
  rw [i2] at h1 h3 h4
  have back : ∀ a, OnStack m cstack a → m3.mem a = m.mem a := by
    intro a ha
    obtain ⟨j, hj, rfl⟩ := onStack_word base a2 ha
    rw [h10 j (by omega), I (9 + j) (by omega) (by omega), S.stack j hj]
  have rest : ∀ a, ¬OnStack m cstack a → a ≠ slot cc 3 → m3.mem a = m2.mem a := by
    intro a ha h3
    refine h11 a ?_ h3
    rintro j hj rfl
    apply ha
    rw [OnStack, off (by omega)]
    omega
  refine ⟨k, m3, ra, h, ⟨?_, h2, h3, ?_, ?_, back⟩, rest, ?_⟩
  · rw [h1]
    apply back
    rw [OnStack, show (m.regs rbp + 8#64).toNat = (m.regs rbp).toNat + 8 from off (x := 8) (by omega)]
    omega
  · rw [h4]
    apply back
    exact ⟨below, by omega, a3⟩
  · intro r hr
    simp only [List.mem_cons, List.not_mem_nil, or_false] at hr
    rcases hr with rfl | rfl | rfl | rfl | rfl
    · rw [h5, i4]
    · rw [h6, i5]
    · rw [h7, i6]
    · rw [h8, i7]
    · rw [h9, i8]
  · intro i hi hi3
    have sl : ∀ i, i < words m cstack + 8 → (slot cc i).toNat = cc.toNat + 16 + 8 * i :=
      fun i hi => slot_toNat (k := N + 2 + 10) room (by omega)
    rw [rest, I i hi hi3]
    · rintro ⟨x1, x2, _⟩
      rw [sl i hi] at x1 x2
      omega
    · intro e
      have := congrArg BitVec.toNat e
      rw [sl i hi, sl 3 (by omega)] at this
      omega

/-- The states a program can be in after `here` has made the continuation `cc` in `m1`: it does anything that leaves the
object alone, and calls the continuation. -/
inductive Later (o0 o1 o2 : Nat) (cstack cc : PN) (n : Nat) (m1 : Mach) : Mach → Prop
  | start : Later o0 o1 o2 cstack cc n m1 m1
  | work {x y} : Later o0 o1 o2 cstack cc n m1 x → Intact cc n x y → Later o0 o1 o2 cstack cc n m1 y
  | call {x y k ra} : Later o0 o1 o2 cstack cc n m1 x → yield o0 o1 o2 cstack cc k x = .asm (some (.ret y ra)) →
      Later o0 o1 o2 cstack cc n m1 y

theorem steps_more {code : List Asm} {k : Nat} {m : Mach} {r : Out} (h : steps code k m = some r) (j : Nat) :
    steps code (k + j) m = some r := by
  induction k generalizing m with
  | zero => simp [steps] at h
  | succ k ih =>
    rw [show k + 1 + j = (k + j) + 1 by omega]
    simp only [steps] at h ⊢
    split
    · rename_i x hx
      rw [hx] at h
      exact ih h
    · rename_i hx
      revert h
      split
      · rename_i y hy
        exact absurd hy (hx y)
      · exact id

theorem yield_unique {o0 o1 o2 : Nat} {cstack cc : PN} {k k' : Nat} {m : Mach} {r r' : Out}
    (h : yield o0 o1 o2 cstack cc k m = .asm (some r)) (h' : yield o0 o1 o2 cstack cc k' m = .asm (some r')) : r = r' := by
  unfold yield at h h'
  split at h
  · simp at h
  · rename_i hc
    rw [if_neg hc] at h'
    simp only [Yield.asm.injEq] at h h'
    have a := steps_more h k'
    have b := steps_more h' k
    rw [Nat.add_comm] at b
    rw [a] at b
    exact Option.some.inj b

/-- C60. However often the continuation has been called and whatever has been done in between, calling it makes `here`
return once more. -/
theorem C60_again_partial {m m1 m2 : Mach} {cstack cc : PN} {o0 o1 o2 : Nat}
    (F : Fits m cstack cc (words m cstack + 10)) (e : callcc cstack cc m = some m1)
    (L : Later o0 o1 o2 cstack cc (words m cstack) m1 m2) (ok : OpsOk o0 o1 o2) :
    ∃ k m3 ra, yield o0 o1 o2 cstack cc k m2 = .asm (some (.ret m3 ra)) ∧ Returns m cstack cc m3 ra := by
  have I : Intact cc (words m cstack) m1 m2 := by
    induction L with
    | start => exact fun _ _ _ => rfl
    | work _ h ih => exact fun i hi h3 => (h i hi h3).trans (ih i hi h3)
    | call _ h ih =>
      obtain ⟨k, m3, ra, h', _, _, I⟩ := C60_resume_partial F e ih ok
      cases yield_unique h h'
      exact I
  obtain ⟨k, m3, ra, h, R, _⟩ := C60_resume_partial F e I ok
  exact ⟨k, m3, ra, h, R⟩

/-- C60. On a stack with another base (another thread's) the call returns nil and does nothing. -/
theorem C60_other_stack {m m1 m2 : Mach} {cstack cc other : PN} {o0 o1 o2 k : Nat}
    (F : Fits m cstack cc (words m cstack + 10)) (e : callcc cstack cc m = some m1) (I : Intact cc (words m cstack) m1 m2)
    (h : other ≠ cstack) : yield o0 o1 o2 other cc k m2 = .nil := by
  obtain ⟨m1', e', S⟩ := callcc_saved F
  rw [e] at e'
  cases Option.some.inj e'
  rw [yield, I 0 (by omega) (by omega), S.s0, if_pos h]

/-- C60, refuted across a collection. The copy the collector makes is five words short (`len` does not count the saved
registers): the five words at the base of the stack are then filled with whatever lies in memory behind the copy. -/
theorem C60_refuted_moved {m m1 : Mach} {cstack cc dst : PN} {o0 o1 o2 : Nat}
    (F : Fits m cstack cc (words m cstack + 10)) (G : Fits m cstack dst (words m cstack + 10))
    (apart : cc.toNat + 8 * (words m cstack + 10) ≤ dst.toNat ∨ dst.toNat + 8 * (words m cstack + 10) ≤ cc.toNat)
    (small : words m cstack + 3 < 2 ^ 32) (deep : 6 ≤ words m cstack)
    (e : callcc cstack cc m = some m1) (ok : OpsOk o0 o1 o2) :
    ∃ k m3 ra, yield o0 o1 o2 cstack dst k (gcCopy m1 cc dst) = .asm (some (.ret m3 ra)) ∧
      ∀ j, j < 5 → m3.mem (cstack - BitVec.ofNat 64 (8 * j)) = m.mem (slot dst (words m cstack + 7 - j)) := by
  obtain ⟨m1', e', S⟩ := callcc_saved F
  rw [e] at e'
  cases Option.some.inj e'
  obtain ⟨base, below, frame, ⟨a1, a2, a3, a4⟩, room, ap⟩ := F
  obtain ⟨_, _, _, ⟨_, _, _, b4⟩, room', ap'⟩ := G
  obtain ⟨N, hN⟩ : ∃ N, words m cstack = N + 2 := ⟨words m cstack - 2, by omega⟩
  rw [hN] at room room' ap ap' apart
  have top : m.regs rsp + BitVec.ofNat 64 (8 * (N + 1)) = cstack := by
    apply BitVec.eq_of_toNat_eq
    rw [words] at hN
    rw [off (by omega)]; omega
  have sps : (m.regs rsp).toNat + 8 * (N + 1) = cstack.toNat := by rw [words] at hN; omega
  have size : sizeWords m1 cc = N + 7 := by
    rw [sizeWords, S.len, hN, BitVec.toNat_setWidth, BitVec.toNat_ofNat]
    omega
  have inside : ∀ i, i < N + 5 → (gcCopy m1 cc dst).mem (slot dst i) = m1.mem (slot cc i) := by
    intro i hi
    have := copyWords_in (m := m1) (dst := dst) (src := cc) (n := N + 7) (by omega) (i + 2) (by omega)
    rw [gcCopy, size]
    rw [show 8 * (i + 2) = 16 + 8 * i by omega] at this
    exact this
  have behind : ∀ i, N + 5 ≤ i → i < N + 10 → (gcCopy m1 cc dst).mem (slot dst i) = m.mem (slot dst i) := by
    intro i h1 h2
    have sl : (slot dst i).toNat = dst.toNat + 16 + 8 * i := slot_toNat (k := N + 2 + 10) room' (by omega)
    rw [gcCopy, size, copyWords_out, S.rest]
    · rintro ⟨x1, x2⟩
      rw [sl] at x1 x2
      omega
    · intro j hj e
      have := congrArg BitVec.toNat e
      rw [sl, off (by omega)] at this
      omega
  have i0 := (inside 0 (by omega)).trans S.s0
  have i1 := (inside 1 (by omega)).trans S.s1
  have i2 := (inside 2 (by omega)).trans S.s2
  obtain ⟨k, m3, ra, h, _, _, _, _, _, _, _, _, _, h10, _⟩ := yield_run ok (cc := dst) (start := m.regs rsp) (n := N + 1)
    (m := gcCopy m1 cc dst) (by omega) b4 a2 (by omega) (by omega) (by omega) i1 (by rw [i0, top]) (by rw [i2]; exact below)
    (by rw [i2]; exact a3) (by rw [i2]; omega)
  rw [top] at h
  refine ⟨k, m3, ra, h, ?_⟩
  intro j hj
  have := h10 (N - j) (by omega)
  rw [behind _ (by omega) (by omega)] at this
  rw [show cstack - BitVec.ofNat 64 (8 * j) = m.regs rsp + BitVec.ofNat 64 (8 * (N - j + 1)) from ?_, this]
  · congr 2; omega
  · apply BitVec.eq_of_toNat_eq
    rw [BitVec.toNat_sub, BitVec.toNat_ofNat, off (by omega), Nat.mod_eq_of_lt (a := 8 * j) (by omega)]
    omega

/-! ### A machine -/
namespace Ex

/-- A stack of ten words under 0x8000; the caller's frame is at 0x7fd0; its caller's at 0x7ff8. -/
def m : Mach where
  rip := 0
  regs := fun r => if r = rsp then 0x7fb8#64 else if r = rbp then 0x7fd0#64 else if r = rbx then 3#64 else 0#64
  zf := false
  sf := false
  of := none
  mem := fun a => if a = 0x7fd0#64 then 0x7ff0#64 else if a = 0x7fd8#64 then 0x400500#64 else if a = 0x8000#64 then 7#64 else 0#64

theorem fits (cc : PN) (h : cc = 0x10000#64 ∨ cc = 0x20000#64) : Fits m 0x8000#64 cc (words m 0x8000#64 + 10) := by
  rcases h with rfl | rfl <;>
  exact ⟨by decide, by decide, by decide, by decide, by decide, by decide⟩

theorem ops : OpsOk 12 1 2 := by
  refine ⟨by decide, by decide, by decide, ?_⟩
  decide

/-- `here` in this machine, then a call of the continuation when all registers hold 9 and the stack is overwritten. -/
example : ∃ m1 k m3 ra, callcc 0x8000#64 0x10000#64 m = some m1 ∧
    yield 12 1 2 0x8000#64 0x10000#64 k
      { m1 with
        regs := fun _ => 9#64
        mem := fun a => if a.toNat ≤ 0x8000 then 5#64 else m1.mem a } = .asm (some (.ret m3 ra)) ∧
    ra = 0x400500#64 ∧ m3.regs rbx = 3#64 ∧ m3.regs rbp = 0x7ff0#64 ∧ m3.mem 0x8000#64 = 7#64 := by
  have F := fits 0x10000#64 (.inl rfl)
  obtain ⟨m1, e, _⟩ := C60_here F
  have I : Intact 0x10000#64 (words m 0x8000#64) m1
      { m1 with
        regs := fun _ => 9#64
        mem := fun a => if a.toNat ≤ 0x8000 then 5#64 else m1.mem a } := by
    intro i hi _
    have hi : i < 18 := hi
    have := slot_toNat (cc := 0x10000#64) (i := i) (k := 40) (by decide) (by omega)
    show (if _ then _ else _) = _
    have h0 : (0x10000#64 : PN).toNat = 0x10000 := rfl
    rw [if_neg (by rw [this]; omega)]
  obtain ⟨k, m3, ra, h, R, _⟩ := C60_resume_partial F e I ops
  exact ⟨m1, k, m3, ra, e, h, R.addr, R.saved rbx (by simp), R.bp, R.stack _ ⟨by decide, by decide, by decide⟩⟩

end Ex

/-- C60, refuted: after a collection has moved the continuation, calling it does not bring back the stack. -/
theorem C60_refuted : ∃ (m m1 : Mach) (cstack cc dst : PN), Fits m cstack cc (words m cstack + 10) ∧
    Fits m cstack dst (words m cstack + 10) ∧ callcc cstack cc m = some m1 ∧
    ∀ o0 o1 o2, OpsOk o0 o1 o2 → ∃ k m3 ra, yield o0 o1 o2 cstack dst k (gcCopy m1 cc dst) = .asm (some (.ret m3 ra)) ∧
      ¬Returns m cstack dst m3 ra := by
  have F := Ex.fits 0x10000#64 (.inl rfl)
  have G := Ex.fits 0x20000#64 (.inr rfl)
  obtain ⟨m1, e, _⟩ := C60_here F
  refine ⟨Ex.m, m1, 0x8000#64, 0x10000#64, 0x20000#64, F, G, e, ?_⟩
  intro o0 o1 o2 ok
  obtain ⟨k, m3, ra, h, w⟩ := C60_refuted_moved F G (by decide) (by decide) (by decide) e ok
  refine ⟨k, m3, ra, h, ?_⟩
  intro R
  have h1 := w 0 (by decide)
  have h2 := R.stack 0x8000#64 ⟨by decide, by decide, by decide⟩
  have h3 : m3.mem 0x8000#64 = 0#64 := h1
  rw [h3] at h2
  exact absurd h2 (by decide)

end Potion.Cont
