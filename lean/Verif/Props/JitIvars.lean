import Verif.Proof.JitIvars
import Verif.Props.Objects
/-!
C28: the machine code generated for finding an instance variable (vm-x86.c:1122-1151, called by objmodel.c:311-312).
-/
namespace Potion.Jit
open Potion Potion.X86 Potion.Obj

/-- Called with the hash of a name in `%edi`, the generated code returns to its caller, having changed no memory and no
register but `%rax` (and the popped return address), and `%rax` is the index of the first variable with that hash, or -1
if there is none. -/
theorem C28_lookup_code (ext : Ext) (uniq : Name → BitVec 32) (vars : List Name) (hv : vars.length < 2^31) (m : Mach)
    (hp : m.rip = 0) (ha : aligned (m.regs rsp) = true) (u : BitVec 32) (hu : (m.regs rdi).setWidth 32 = u) :
    ∃ (k : Nat) (m' : Mach), m.steps ext (ivarsCode 0 (vars.map uniq)) k = some (.ret m' (m.mem (m.regs rsp))) ∧
      m'.mem = m.mem ∧ m'.regs rsp = m.regs rsp + 8#64 ∧ (∀ r, r ≠ rax → r ≠ rsp → m'.regs r = m.regs r) ∧
      (((m'.regs rax).toInt = -1 ∧ ∀ x ∈ vars, uniq x ≠ u) ∨
       ∃ (i : Nat) (x : Name), (m'.regs rax).toInt = i ∧ vars[i]? = some x ∧ uniq x = u ∧
         ∀ (j : Nat) (y : Name), j < i → vars[j]? = some y → uniq y ≠ u) := by
  have hat : At (ivarsCode 0 (vars.map uniq)) 0 (ivarsCode 0 (vars.map uniq)) := ⟨[], by simp⟩
  obtain ⟨k, m1, r, m', h1, h2, h3, h4, h5⟩ := ivars_reach (ext := ext) uniq vars 0 0 m (by omega) ha hat
  have e : at_ m 0 = m := by unfold at_; rw [← hp]
  rw [e] at r
  refine ⟨k + 1, m', ?_, h2, h4, h3, ?_⟩
  · rw [r.steps 1]; simp only [Mach.steps, h1]
  · rw [hu] at h5
    cases hi : ivfunc uniq vars 0 u with
    | none => rw [hi] at h5; exact .inl ⟨h5, ivfunc_none.1 hi⟩
    | some i =>
      rw [hi] at h5
      have key : ∀ (l : List Name) (k i : Nat), ivfunc uniq l k u = some i → ∀ (j : Nat) (y : Name), k + j < i → l[j]? = some y → uniq y ≠ u := by
        intro l
        induction l with
        | nil => intro k i h; cases h
        | cons v l ih =>
          intro k i h j y hj hy
          rw [ivfunc] at h
          split at h
          · cases h; omega
          · rename_i hne
            cases j with
            | zero => cases hy; exact hne
            | succ j => exact ih (k + 1) i h j y (by omega) hy
      obtain ⟨a, b, c⟩ := ivfunc_some hi
      obtain ⟨x, hx, hxu⟩ := Option.map_eq_some_iff.1 c
      exact .inr ⟨i, x, h5, hx, hxu, fun j y hj hy => key vars 0 i hi j y (by omega) hy⟩

/-- Non-vacuity: three variables, found, found first of two with the same hash, and not found. -/
def ivMach (u : PN) : Mach :=
  { rip := 0, regs := fun r => if r = rdi then u else if r = rsp then 4096#64 else 5#64, zf := false, sf := false, of := none,
    mem := fun _ => 0x1234#64 }

def ivAnswer (us : List (BitVec 32)) (u : PN) : Option Int :=
  match (ivMach u).steps (fun _ _ => none) (ivarsCode 0 us) 20 with
  | some (.ret m back) => if back = 0x1234#64 then some (m.regs rax).toInt else none
  | _ => none

example : ivAnswer [7#32, 0xdeadbeef#32, 7#32] 0xdeadbeef#64 = some 1 ∧ ivAnswer [7#32, 0xdeadbeef#32, 7#32] 7#64 = some 0 ∧
    ivAnswer [7#32, 0xdeadbeef#32, 7#32] 8#64 = some (-1) ∧ ivAnswer [] 8#64 = some (-1) := by decide +kernel
example : aligned ((ivMach 7#64).regs rsp) = true ∧ (ivMach 7#64).rip = 0 := by decide +kernel

end Potion.Jit
