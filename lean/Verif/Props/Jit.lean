import Verif.Proof.JitWrong
import Verif.Proof.JitDiv
import Verif.Props.Numbers
/-!
C58. Machine code generated for a function does what the interpreter does.

The machine is the x86-64 model of `Model/X86.lean`, which decodes and executes the bytes; `Spec/Jit.lean` says what a
call is and what the caller may expect. Hypotheses common to the theorems: `f` is one of the functions treated (`Simple`),
the generator produced `code` for it, the C functions it calls behave (`Helpers`), the machine is at a call of it (`Entry`),
the stack words the call does not set are the same on both sides (`Stale`; take `.fn` for unknown ones), and no step
needs what generated code does differently (`Tame`).
-/
namespace Potion.Jit
open Potion Potion.X86 Potion.Vm

section
variable {E : Env} {f : Proto} {loc : Nat → PN} {H : PN → Prop} {ext : Ext} {code : List Byte} {cl tup : PN} {word : PN → Prop}
  {heap : List Obj} {self : Val} {up args : List Val} {m0 : Mach} {stk : Nat → Val} {grow : Nat → Nat} {s0 : State}

/-- Code is generated for every such function of at most 1024 instructions. -/
theorem C58_code_is_generated (hf : Simple f) (hl : f.len ≤ 1024) : ∃ code, jit E f = some code := jit_some hf hl

/-- If the interpreter finishes with value `v`, the generated code returns to its caller with `v`, having changed nothing
the caller may rely on. -/
theorem C58_returns_what_the_interpreter_computes (hf : Simple f) (hj : jit E f = some code) (hH : Helpers E ext H cl tup word)
    (he : Entry E f loc H heap cl tup self up args m0) (hs : Stale f loc heap stk m0)
    (h0 : State.enter { f := f, pos := 0, cur := 0, stack := stk, heap := heap, grow := grow } self up args = some s0)
    (hT : ∀ t, Visits s0 t → Tame word t) {n : Nat} {v : Val} {s' : State} (hr : s0.steps n = some (.done v s')) :
    ∃ k m' back, m0.steps ext code k = some (.ret m' back) ∧ Returned f loc H v s'.heap m0 m' back := by
  have hL := laid hf hj
  obtain ⟨k, m1, r, sv, top, v1, b1, b2, b3, b4⟩ := entry_sim (ext := ext) hf hL he hs h0
  obtain ⟨k2, m2, m', a1, a2, a3, a4, t, v2, a5⟩ := sim_done hf hL hH n v1 hT hr
  have e8 : m0.regs 4 - 8#64 + 8#64 = m0.regs 4 := BitVec.sub_add_cancel _ _
  have e16 : m0.regs 4 - 8#64 + 16#64 = m0.regs 4 + 8#64 := by
    rw [← show (8#64 + 8#64 : PN) = 16#64 from rfl, ← BitVec.add_assoc, e8]
  have room : Room f m0 := ⟨he.room.1, he.room.2.1, he.room.2.2⟩
  have hbp := room.bp
  have hlo := room.lo
  have hfp := frame_pos f
  have hst : ∀ A : PN, (m0.regs 4).toNat ≤ A.toNat → ¬ H A → m2.mem A = m0.mem A := by
    intro A hA hH'
    rw [v2.top A (by omega) hH', b3 A hA]
  have nH : ∀ A, InUse f (m0.regs 4) A ∨ A = m0.regs 4 → ¬ H A := by
    intro A hA hH'
    obtain ⟨c1, c2⟩ := he.placed.stack A hH'
    rcases hA with h | h
    · exact c1 h
    · exact c2 h
  refine ⟨k + k2, m', _, by rw [r.steps]; exact a1, ?_, a2, ?_, ?_, ?_, ?_, ?_, ?_⟩
  · rw [e8]
    exact hst _ (Nat.le_refl _) (nH _ (.inr rfl))
  · have := congrArg Prod.fst a3
    rw [e16] at this
    exact this
  · have : m'.regs 5 = m2.mem (m0.regs 4 - 8#64) := congrArg (fun x => x.2.1) a3
    show m'.regs 5 = m0.regs 5
    rw [this, v2.top _ (Nat.le_refl _) (nH _ (.inl (by unfold InUse; omega))), b4]
  · have h1 : m'.regs 12 = sv.2.1 := congrArg (fun x => x.2.2.2.1) a3
    have h2 : m'.regs 13 = sv.2.2.1 := congrArg (fun x => x.2.2.2.2.1) a3
    have h3 : m'.regs 14 = sv.2.2.2.1 := congrArg (fun x => x.2.2.2.2.2.1) a3
    have h4 : m'.regs 15 = sv.2.2.2.2 := congrArg (fun x => x.2.2.2.2.2.2) a3
    rw [b2] at h1 h2 h3 h4
    exact ⟨h1, h2, h3, h4⟩
  · intro h3
    have : m'.regs 3 = sv.1 := congrArg (fun x => x.2.2.1) a3
    exact this.trans (b1 h3)
  · intro A hA hH'
    rw [a4]; exact hst A hA hH'
  · rw [a4, a5]; exact v2.cells

/-- If the interpreter runs forever, so does the generated code: it never traps and never returns. -/
theorem C58_runs_as_long_as_the_interpreter (hf : Simple f) (hj : jit E f = some code) (hH : Helpers E ext H cl tup word)
    (he : Entry E f loc H heap cl tup self up args m0) (hs : Stale f loc heap stk m0)
    (h0 : State.enter { f := f, pos := 0, cur := 0, stack := stk, heap := heap, grow := grow } self up args = some s0)
    (hT : ∀ t, Visits s0 t → Tame word t) (hr : ∀ n, s0.steps n = none) : ∀ k, m0.steps ext code k = none := by
  intro k
  have hL := laid hf hj
  obtain ⟨k1, m1, r, sv, top, v1, _⟩ := entry_sim (ext := ext) hf hL he hs h0
  refine steps_none_mono (n := k1 + k) (by omega) ?_
  rw [r.steps]
  exact sim_forever hf hL hH k v1 hT (hr k)

end

/-! ### Where it does not -/

section
variable {ext : Ext} {code : List Byte} {m : Mach}

/-- REFUTED for registers 16 to 31: when `x < y` is false and its result goes to such a register, the processor is sent
into the middle of an instruction, to the bytes FF FF FF, which are none (vm-x86.c:41 adds 3 bytes above register 31, but
from register 16 on the instruction is longer). The same holds of the other comparisons. -/
theorem C58_false_comparison_in_register_16_crashes (hal : aligned (m.regs rbp) = true) {a b : Int} (ha : 16 ≤ a ∧ a ≤ 31)
    (hb : 0 ≤ b ∧ b < 2^20) (hx : isInt (m.mem (slot (m.regs rbp) a)) = true) (hy : isInt (m.mem (slot (m.regs rbp) b)) = true)
    (hc : ¬ (m.mem (slot (m.regs rbp) a)).toInt < (m.mem (slot (m.regs rbp) b)).toInt)
    (E : Env) (f : Proto) {bs : List Byte} (hbs : plain E f ⟨.lt, a, b⟩ = some bs) (h : At code m.rip bs) :
    ∃ k, m.steps ext code k = some .fault := by
  obtain rfl := Option.some.inj hbs
  exact numcmp_wrong (m := m) (p := m.rip) hal ha hb 0x7C#8 0x72#8 .l (fun _ _ => rfl) hx hy
    (fun c => by rw [cmp_l, decide_eq_false hc]) h

/-- REFUTED for division with a negative quotient: the machine code computes it in 32 bits and makes the positive number that
is 2^31 more. (Exact for every pair of integers of 31 bits.) -/
theorem C58_division_is_32_bit (H : PN → Prop) (hal : aligned (m.regs rbp) = true) {a b : Int} (ha : 0 ≤ a ∧ a < 2^20) (hb : 0 ≤ b ∧ b < 2^20)
    {x y : PN} (hx : m.mem (slot (m.regs rbp) a) = x) (hy : m.mem (slot (m.regs rbp) b) = y) (ix : isInt x = true) (iy : isInt y = true)
    (bx : Half x) (bY : Half y) (h0 : pnInt y ≠ 0) (E : Env) (f : Proto) {bs : List Byte} (hbs : plain E f ⟨.div, a, b⟩ = some bs)
    (h : At code m.rip bs) :
    ∃ (k : Nat) (m' : Mach), (∀ n, m.steps ext code (k + n) = m'.steps ext code n) ∧ m'.rip = m.rip + bs.length ∧
      (Live H m (slot (m.regs rbp) a) → m'.mem (slot (m.regs rbp) a) =
        pnNum (if 0 ≤ (pnInt x).tdiv (pnInt y) then (pnInt x).tdiv (pnInt y) else (pnInt x).tdiv (pnInt y) + 2^31)) := by
  obtain rfl := Option.some.inj hbs
  obtain ⟨k, m', r, q1, _, q3⟩ := math2_run (H := H) (ext := ext) (p := m.rip) hal ha hb (by decide) (by rw [hx]; exact ix) (by rw [hy]; exact iy)
    (by rw [hx, hy]; exact div_ops x y ix iy bx bY h0) h
  refine ⟨k, m', r.steps, q1, fun hl => ?_⟩
  rw [q3 _ hl, if_pos rfl]
  rfl

/-- REFUTED for captured variables: `x = e` in a function that defines functions using `x` stores the value in the shared
cell, and then also over the variable's own reference to the cell (vm-x86.c:524-540; the interpreter, vm.c:692-699, does one
or the other). -/
theorem C58_assignment_unlinks_captured_variable (hal : aligned (m.regs rbp) = true) (E : Env) {f : Proto} {a b : Int}
    (ha : 0 ≤ a ∧ a < 2^20) (hb : 0 ≤ b ∧ f.stack + b < 2^20) (hu : hasUpvals f = true) {cell : PN}
    (hc : m.mem (slot (m.regs rbp) (f.stack + b)) = cell) (hca : aligned cell = true)
    (hc0 : cell.setWidth 32 &&& BitVec.ofInt 32 (-8) ≠ 0#32) (htw : (m.mem cell).setWidth 32 = 0x250006#32)
    (hd : cell + 8#64 ≠ slot (m.regs rbp) (f.stack + b))
    {bs : List Byte} (hbs : plain E f ⟨.setlocal, a, b⟩ = some bs) (h : At code m.rip bs) :
    ∃ (k : Nat) (m' : Mach), (∀ n, m.steps ext code (k + n) = m'.steps ext code n) ∧ m'.rip = m.rip + bs.length ∧
      m'.mem (cell + 8#64) = m.mem (slot (m.regs rbp) a) ∧
      m'.mem (slot (m.regs rbp) (f.stack + b)) = m.mem (slot (m.regs rbp) a) := by
  simp only [plain, hu, if_true] at hbs
  obtain rfl := Option.some.inj hbs
  obtain ⟨k, m', r, q1, _, q3⟩ := setlocal_ref_run (ext := ext) (p := m.rip) hal ha (l := f.stack + b) ⟨by omega, hb.2⟩ hc hca hc0 htw h
  refine ⟨k, m', r.steps, q1, ?_, ?_⟩
  · rw [q3]
    dsimp only
    rw [if_neg hd, if_pos rfl]
  · rw [q3]
    dsimp only
    rw [if_pos rfl]

/-- ... so that later assignments by the inner functions go unnoticed: reading the variable gives the integer that was
assigned, whatever is in the cell. -/
theorem C58_captured_variable_is_stale (hal : aligned (m.regs rbp) = true) (E : Env) {f : Proto} {a b : Int}
    (ha : 0 ≤ a ∧ a < 2^20) (hb : 0 ≤ b ∧ f.stack + b < 2^20) (hu : hasUpvals f = true)
    (hi : isInt (m.mem (slot (m.regs rbp) (f.stack + b))) = true)
    {bs : List Byte} (hbs : plain E f ⟨.getlocal, a, b⟩ = some bs) (h : At code m.rip bs) :
    ∃ (k : Nat) (m' : Mach), (∀ n, m.steps ext code (k + n) = m'.steps ext code n) ∧ m'.rip = m.rip + bs.length ∧
      ∀ A, m'.mem A = if A = slot (m.regs rbp) a then m.mem (slot (m.regs rbp) (f.stack + b)) else m.mem A := by
  simp only [plain, hu, if_true] at hbs
  obtain rfl := Option.some.inj hbs
  obtain ⟨k, m', r, q1, _, q3⟩ := getlocal_int_run (H := fun _ => True) (ext := ext) (p := m.rip) hal ha (l := f.stack + b) ⟨by omega, hb.2⟩ hi h
  exact ⟨k, m', r.steps, q1, fun A => q3 A (.inr trivial)⟩

end

/-! ### Concrete functions -/

/-- A machine at a call: stack pointer 0x100008, the arguments, `%rbx`, and the contents of memory. -/
def caller (P cl me x y : PN) (bx : PN) (mem : PN → PN) : Mach :=
  { rip := 0
    regs := fun r => if r = rdi then P else if r = rsi then cl else if r = rdx then me else if r = rcx then x
      else if r = r8 then y else if r = rsp then 0x100008#64 else if r = rbx then bx else 0#64
    zf := false
    sf := false
    of := none
    mem := mem }

def env : Env := ⟨1#64, 2#64, 3#64, 4#64, 5#64, 6#64, 7#64, 8#64, 9#64, 10#64, 11#64, 12#64⟩

/-- C functions with the behaviour `Helpers` asks for. -/
def helpers (tup : PN) : Ext := fun a m =>
  if a = env.fValues then some (m.set rax tup)
  else if a = env.vmEq then some (m.set rax (pnBool (m.regs rsi == m.regs rdx)))
  else if a = env.vmNeq then some (m.set rax (pnBool (m.regs rsi != m.regs rdx)))
  else none

theorem helpers_ok (H : PN → Prop) (cl tup : PN) (word : PN → Prop) : Helpers env (helpers tup) H cl tup word :=
  ⟨fun _ _ _ _ => ⟨_, rfl, ⟨rfl, fun _ _ => rfl⟩, rfl⟩, fun _ _ _ _ _ => ⟨_, rfl, ⟨rfl, fun _ _ => rfl⟩, rfl⟩,
    fun _ _ _ _ _ => ⟨_, rfl, ⟨rfl, fun _ _ => rfl⟩, rfl⟩⟩

def proto (locals stack : Nat) (params : List Nat) (is : List Ins) : Proto :=
  { id := 0
    upvalsize := 0
    localsize := locals
    params := params
    minargs := params.length
    defaults := []
    stack := stack
    values := [pnNum 1]
    protos := []
    code := fun k => (is[k]?).getD ⟨.other, 0, 0⟩
    len := is.length }

/-- `(x, y): if (x < y): x + 1. else: y.` -/
def sample : Proto := proto 2 2 [0, 1]
  [⟨.getlocal, 0, 0⟩, ⟨.getlocal, 1, 1⟩, ⟨.lt, 0, 1⟩, ⟨.notjmp, 0, 4⟩, ⟨.getlocal, 0, 0⟩, ⟨.loadk, 1, 0⟩, ⟨.add, 0, 1⟩, ⟨.jmp, 1, 0⟩,
   ⟨.getlocal, 0, 1⟩, ⟨.ret, 0, 0⟩]

instance (f : Proto) (x : Int) : Decidable (IsReg f x) := by unfold IsReg; infer_instance
instance (f : Proto) (x : Int) : Decidable (IsLoc f x) := by unfold IsLoc; infer_instance
instance (f : Proto) (x : Int) : Decidable (IsUp f x) := by unfold IsUp; infer_instance
instance (f : Proto) (i : Ins) : Decidable (Operands f i) := by unfold Operands; split <;> infer_instance

theorem sample_simple : Simple sample := by
  refine ⟨by decide, by decide, by decide, by decide, by decide, ?_, ?_⟩
  · have : ∀ k : Fin 10, Operands sample (sample.code k.val) := by decide
    exact fun k hk => this ⟨k, hk⟩
  · intro k hk dst hl
    have hk : k < 10 := hk
    have hc : k = 0 ∨ k = 1 ∨ k = 2 ∨ k = 3 ∨ k = 4 ∨ k = 5 ∨ k = 6 ∨ k = 7 ∨ k = 8 ∨ k = 9 := by omega
    show 0 ≤ dst ∧ dst < 10
    rcases hc with rfl | rfl | rfl | rfl | rfl | rfl | rfl | rfl | rfl | rfl <;> simp [Leads, sample, proto] at hl <;> omega

theorem visits_run {s s1 t : State} (h : s.step = .run s1) (hv : Visits s t) : t = s ∨ Visits s1 t := by
  cases hv with
  | here => exact .inl rfl
  | next h1 h2 => rw [h] at h1; cases h1; exact .inr h2

theorem visits_done {s s1 t : State} {v : Val} (h : s.step = .done v s1) (hv : Visits s t) : t = s := by
  cases hv with
  | here => rfl
  | next h1 h2 => rw [h] at h1; cases h1

/-- Interpreter states of the example. -/
def at9 (pos : Nat) (a b c d e : Val) : State :=
  { f := sample
    pos := pos
    cur := 0
    stack := fun k => if k = 0 then a else if k = 1 then b else if k = 2 then c else if k = 3 then d else if k = 4 then e else .fn sample
    heap := []
    grow := fun _ => 0 }

theorem at9_ext {pos : Nat} {a b c d e : Val} {s : State} (h1 : s.f = sample) (h2 : s.pos = pos) (h3 : s.cur = 0) (h4 : s.heap = [])
    (h5 : s.grow = fun _ => 0) (h : s.stack = (at9 0 a b c d e).stack) : s = at9 pos a b c d e := by
  cases s; cases h1; cases h2; cases h3; cases h4; cases h5; cases h; rfl

theorem stepTo {s t : State} {k : Nat} (h : s.step = .run t) : s.steps (k + 1) = t.steps k := by
  show (match s.step with | .run s => State.steps k s | r => some r) = _
  rw [h]

/-- The example, for all integers `i` and `j` of the same sign such that `i + 1` is an integer of the language: called with
them, its machine code returns `i + 1` if `i < j` and else `j`, to the address after the call. -/
theorem C58_sample {code : List Byte} (hj : jit env sample = some code) {me x y bx : PN} {mem : PN → PN} {i j : Int}
    (hx : Spec.Denotes x i) (hy : Spec.Denotes y j) (hxy : 0 ≤ i ↔ 0 ≤ j) (hr : Spec.InRange (i + 1)) (hm : mem 0x200010#64 = pnNum 1) :
    ∃ k m', (caller env.P 0x300000#64 me x y bx mem).steps (helpers 0x200000#64) code k = some (.ret m' (mem 0x100008#64)) ∧
      Spec.Denotes (m'.regs rax) (if i < j then i + 1 else j) ∧ m'.regs rbx = bx := by
  let H : PN → Prop := fun A => A = 0x200010#64
  have hsz : (frame sample + 8).toNat = 104 := by decide
  have hsp : (caller env.P 0x300000#64 me x y bx mem).regs rsp = 0x100008#64 := rfl
  have he : Entry env sample (fun _ => 8#64) H [] 0x300000#64 0x200000#64 (.imm me) [] [.imm x, .imm y]
      (caller env.P 0x300000#64 me x y bx mem) := by
    refine ⟨rfl, ?_, rfl, rfl, ⟨rfl, trivial⟩, rfl, ?_, rfl, ?_, ⟨?_, ?_⟩, ?_, ?_⟩
    · rw [hsz, hsp]
      decide
    · intro k v hk
      rcases k with _|_|k
      · cases hk; exact ⟨rfl, trivial⟩
      · cases hk; exact ⟨rfl, trivial⟩
      · cases hk
    · intro k v hk; cases hk
    · intro n v h; cases h
    · intro n v h; cases h
    · refine ⟨fun _ => ⟨by decide, by decide⟩, fun n v h => ?_, fun n n' v v' h => ?_, ?_⟩
      · cases h
      · cases h
      rintro A rfl
      rw [hsp]
      refine ⟨?_, by decide⟩
      unfold InUse
      rw [hsz]
      decide
    · refine ⟨by decide, ?_, fun b w h n v hn => ?_⟩
      · intro b w hb
        rcases b with _|b
        · cases hb; exact ⟨hm, rfl⟩
        · cases hb
      · cases hn
  have hs : Stale sample (fun _ => 8#64) [] (fun _ => .fn sample) (caller env.P 0x300000#64 me x y bx mem) :=
    fun k _ => ⟨trivial, trivial⟩
  have h0 : State.enter { f := sample, pos := 0, cur := 0, stack := fun _ => .fn sample, heap := [], grow := fun _ => 0 } (.imm me) []
      [.imm x, .imm y] = some (at9 0 (.imm x) (.imm y) (.imm me) (.imm me) (.fn sample)) := by
    refine congrArg some (at9_ext rfl rfl rfl rfl rfl ?_)
    funext k
    rcases k with _|_|_|_|_|k <;> rfl
  have hcmp := Props.C04_interpreter_compare_partial .lt x y i j hx hy hxy
  obtain ⟨z, hz, dz⟩ := (Props.C03_vm_no_wrap (fun k => ((k, 0) : Int × Int)) (fun p q => (p.1, q.1)) .add (.inl rfl) x (pnNum 1) i 1 hx
    (denotes_pnNum (by decide))).1 hr
  have s0 : (at9 0 (.imm x) (.imm y) (.imm me) (.imm me) (.fn sample)).step = .run (at9 1 (.imm x) (.imm y) (.imm me) (.imm x) (.fn sample)) := by
    refine congrArg Res.run (at9_ext rfl rfl rfl rfl rfl ?_)
    funext k
    rcases k with _|_|_|_|_|k <;> rfl
  have s1 : (at9 1 (.imm x) (.imm y) (.imm me) (.imm x) (.fn sample)).step = .run (at9 2 (.imm x) (.imm y) (.imm me) (.imm x) (.imm y)) := by
    refine congrArg Res.run (at9_ext rfl rfl rfl rfl rfl ?_)
    funext k
    rcases k with _|_|_|_|_|k <;> rfl
  have s2 : (at9 2 (.imm x) (.imm y) (.imm me) (.imm x) (.imm y)).step =
      .run (at9 3 (.imm x) (.imm y) (.imm me) (.imm (pnBool (decide (i < j)))) (.imm y)) := by
    show (if isInt x && isInt y then _ else _) = _
    rw [((denotes_iff _ _).1 hx).1, ((denotes_iff _ _).1 hy).1, hcmp]
    refine congrArg Res.run (at9_ext rfl rfl rfl rfl rfl ?_)
    funext k
    rcases k with _|_|_|_|_|k <;> rfl
  have msb : x.msb = y.msb := by
    have h1 := Props.toNat_of_denotes hx
    have h2 := Props.toNat_of_denotes hy
    rw [BitVec.msb_eq_decide, BitVec.msb_eq_decide, decide_eq_decide]
    have r1 := hx.inRange
    have r2 := hy.inRange
    unfold Spec.InRange at r1 r2
    split at h1 <;> split at h2 <;> omega
  have sRet : ∀ v w, (at9 9 (.imm x) (.imm y) (.imm me) v w).step = .done v (at9 9 (.imm x) (.imm y) (.imm me) v w) := by
    intro v w
    refine congrArg (Res.done v) (at9_ext rfl rfl rfl rfl rfl ?_)
    funext k
    rcases k with _|_|_|_|_|k <;> rfl
  have fin : ∀ n v s', (at9 0 (.imm x) (.imm y) (.imm me) (.imm me) (.fn sample)).steps n = some (.done v s') →
      (∀ t, Visits (at9 0 (.imm x) (.imm y) (.imm me) (.imm me) (.fn sample)) t → Tame (fun _ => True) t) →
      (∀ w, Rep (fun _ => 8#64) v w → Spec.Denotes w (if i < j then i + 1 else j)) →
      ∃ k m', (caller env.P 0x300000#64 me x y bx mem).steps (helpers 0x200000#64) code k = some (.ret m' (mem 0x100008#64)) ∧
      Spec.Denotes (m'.regs rax) (if i < j then i + 1 else j) ∧ m'.regs rbx = bx := by
    intro n v s' hn hT hv
    obtain ⟨k, m', back, g1, g2⟩ := C58_returns_what_the_interpreter_computes sample_simple hj (helpers_ok H 0x300000#64 0x200000#64 fun _ => True)
      he hs h0 hT hn
    refine ⟨k, m', ?_, hv _ g2.value, g2.bx (by decide)⟩
    rw [g1, g2.addr]
    rfl
  by_cases hlt : i < j
  · rw [decide_eq_true hlt, show pnBool true = PN_TRUE from rfl] at s2
    have s3 : (at9 3 (.imm x) (.imm y) (.imm me) (.imm PN_TRUE) (.imm y)).step = .run (at9 4 (.imm x) (.imm y) (.imm me) (.imm PN_TRUE) (.imm y)) := rfl
    have s4 : (at9 4 (.imm x) (.imm y) (.imm me) (.imm PN_TRUE) (.imm y)).step = .run (at9 5 (.imm x) (.imm y) (.imm me) (.imm x) (.imm y)) := by
      refine congrArg Res.run (at9_ext rfl rfl rfl rfl rfl ?_)
      funext k
      rcases k with _|_|_|_|_|k <;> rfl
    have s5 : (at9 5 (.imm x) (.imm y) (.imm me) (.imm x) (.imm y)).step = .run (at9 6 (.imm x) (.imm y) (.imm me) (.imm x) (.imm (pnNum 1))) := by
      refine congrArg Res.run (at9_ext rfl rfl rfl rfl rfl ?_)
      funext k
      rcases k with _|_|_|_|_|k <;> rfl
    have s6 : (at9 6 (.imm x) (.imm y) (.imm me) (.imm x) (.imm (pnNum 1))).step =
        .run (at9 7 (.imm x) (.imm y) (.imm me) (.imm z) (.imm (pnNum 1))) := by
      show (if isInt x && isInt (pnNum 1) then
        (if (true : Bool) = true then
          match vmMath3 .add (fun k => ((k, 0) : Int × Int)) (fun p q => (p.1, q.1)) x (pnNum 1) with
          | .imm w => _
          | .dbl _ => _
         else _) else _) = _
      rw [((denotes_iff _ _).1 hx).1, show isInt (pnNum 1) = true from by decide, hz]
      refine congrArg Res.run (at9_ext rfl rfl rfl rfl rfl ?_)
      funext k
      rcases k with _|_|_|_|_|k <;> rfl
    have s7 : (at9 7 (.imm x) (.imm y) (.imm me) (.imm z) (.imm (pnNum 1))).step = .run (at9 9 (.imm x) (.imm y) (.imm me) (.imm z) (.imm (pnNum 1))) := rfl
    refine fin 9 (.imm z) (at9 9 (.imm x) (.imm y) (.imm me) (.imm z) (.imm (pnNum 1))) ?_ ?_ ?_
    · rw [stepTo s0, stepTo s1, stepTo s2, stepTo s3, stepTo s4, stepTo s5, stepTo s6, stepTo s7]
      simp only [State.steps, sRet]
    · intro t hv
      rcases visits_run s0 hv with rfl | hv
      · trivial
      rcases visits_run s1 hv with rfl | hv
      · trivial
      rcases visits_run s2 hv with rfl | hv
      · intro a b h1 h2
        cases h1; cases h2; exact msb
      rcases visits_run s3 hv with rfl | hv
      · intro p h; cases h
      rcases visits_run s4 hv with rfl | hv
      · trivial
      rcases visits_run s5 hv with rfl | hv
      · trivial
      rcases visits_run s6 hv with rfl | hv
      · intro t ht
        rw [s6] at ht
        cases ht; rfl
      rcases visits_run s7 hv with rfl | hv
      · trivial
      cases visits_done (sRet _ _) hv
      trivial
    · rintro w rfl
      rw [if_pos hlt]; exact dz
  · rw [decide_eq_false hlt, show pnBool false = PN_FALSE from rfl] at s2
    have s3 : (at9 3 (.imm x) (.imm y) (.imm me) (.imm PN_FALSE) (.imm y)).step = .run (at9 8 (.imm x) (.imm y) (.imm me) (.imm PN_FALSE) (.imm y)) := rfl
    have s4 : (at9 8 (.imm x) (.imm y) (.imm me) (.imm PN_FALSE) (.imm y)).step = .run (at9 9 (.imm x) (.imm y) (.imm me) (.imm y) (.imm y)) := by
      refine congrArg Res.run (at9_ext rfl rfl rfl rfl rfl ?_)
      funext k
      rcases k with _|_|_|_|_|k <;> rfl
    refine fin 6 (.imm y) (at9 9 (.imm x) (.imm y) (.imm me) (.imm y) (.imm y)) ?_ ?_ ?_
    · rw [stepTo s0, stepTo s1, stepTo s2, stepTo s3, stepTo s4]
      simp only [State.steps, sRet]
    · intro t hv
      rcases visits_run s0 hv with rfl | hv
      · trivial
      rcases visits_run s1 hv with rfl | hv
      · trivial
      rcases visits_run s2 hv with rfl | hv
      · intro a b h1 h2
        cases h1; cases h2; exact msb
      rcases visits_run s3 hv with rfl | hv
      · intro p h; cases h
      rcases visits_run s4 hv with rfl | hv
      · trivial
      cases visits_done (sRet _ _) hv
      trivial
    · rintro w rfl
      rw [if_neg hlt]; exact hy

/-! #### Counterexamples

Whole functions, with arguments that are integers. `ran` is what the machine code does and `interp` what the interpreter
gives. -/

/-- Outcome of a run: `none` = still running, `some none` = trap, else `%rax` and `%rbx` at return. -/
def outcome : Option Out → Option (Option (PN × PN))
  | none => none
  | some (.ret m _) => some (some (m.regs rax, m.regs rbx))
  | some _ => some none

/-- At most `k` instructions of the code of `f`, called with receiver nil, `%rbx` 77, and memory filled with the word `fill`. -/
def ran (f : Proto) (x y fill : PN) (k : Nat) : Option (Option (PN × PN)) :=
  match jit env f with
  | none => none
  | some code => outcome ((caller env.P 0x300000#64 0#64 x y 77#64 fun _ => fill).steps (helpers 0x200000#64) code k)

/-- The value the interpreter returns within `k` steps. -/
def interp (f : Proto) (args : List Val) (k : Nat) : Option PN :=
  match State.enter { f := f, pos := 0, cur := 0, stack := fun _ => .imm PN_NIL, heap := [], grow := fun _ => 0 } (.imm PN_NIL) [] args with
  | none => none
  | some s => match s.steps k with
    | some (.done (.imm w) _) => some w
    | _ => none

/-- A comparison in register 16, such as `(x, y): 0, ..., 0, x < y` can have: the interpreter returns false, the machine traps. -/
def cmp16 : Proto := proto 2 18 [0, 1] [⟨.getlocal, 16, 0⟩, ⟨.getlocal, 17, 1⟩, ⟨.lt, 16, 17⟩, ⟨.move, 0, 16⟩, ⟨.ret, 0, 0⟩]

theorem C58_register_16_counterexample : interp cmp16 [.imm (pnNum 2), .imm (pnNum 1)] 10 = some PN_FALSE ∧
    ran cmp16 (pnNum 2) (pnNum 1) 0#64 100 = some none := by decide +kernel

/-- ... while a true comparison works. -/
theorem C58_register_16_true : interp cmp16 [.imm (pnNum 1), .imm (pnNum 2)] 10 = some PN_TRUE ∧
    ran cmp16 (pnNum 1) (pnNum 2) 0#64 100 = some (some (PN_TRUE, 77#64)) := by decide +kernel

/-- REFUTED for comparison of integers of different sign: `-1 < 1` is false in the interpreter and true in machine code. -/
def less : Proto := proto 2 2 [0, 1] [⟨.getlocal, 0, 0⟩, ⟨.getlocal, 1, 1⟩, ⟨.lt, 0, 1⟩, ⟨.ret, 0, 0⟩]

theorem C58_mixed_sign_counterexample : interp less [.imm (pnNum (-1)), .imm (pnNum 1)] 10 = some PN_FALSE ∧
    ran less (pnNum (-1)) (pnNum 1) 0#64 100 = some (some (PN_TRUE, 77#64)) := by decide +kernel

/-- REFUTED for `return x` in the middle of an expression, which compiles to RETURN of a register other than 0 (compile.c
737-741): the machine code returns register 0 whatever the operand (vm-x86.c:1032-1035). -/
def ret1 : Proto := proto 2 2 [0, 1] [⟨.getlocal, 0, 0⟩, ⟨.getlocal, 1, 1⟩, ⟨.ret, 1, 0⟩]

theorem C58_return_operand_counterexample : interp ret1 [.imm (pnNum 10), .imm (pnNum 20)] 10 = some (pnNum 20) ∧
    ran ret1 (pnNum 10) (pnNum 20) 0#64 100 = some (some (pnNum 10, 77#64)) := by decide +kernel

/-- REFUTED for sums above the integer range: the interpreter makes a double (here it is not an immediate word), the
machine code wraps around. -/
def plus : Proto := proto 2 2 [0, 1] [⟨.getlocal, 0, 0⟩, ⟨.getlocal, 1, 1⟩, ⟨.add, 0, 1⟩, ⟨.ret, 0, 0⟩]

theorem C58_overflow_counterexample : interp plus [.imm (pnNum (2^62 - 1)), .imm (pnNum 1)] 10 = none ∧
    ran plus (pnNum (2^62 - 1)) (pnNum 1) 0#64 100 = some (some (pnNum (-(2^62)), 77#64)) := by decide +kernel

/-- REFUTED for division, remainder and shifts of negative or large integers, which the machine code does in 32 bits:
-7 / 2 is 2147483645, -7 % 2 is 2147483647, -8 >> 1 is 2147483644, 2^32 / 2 is 0, and 5 / 2^32 is a division by zero, which kills the process. -/
def binop (o : Opc) : Proto := proto 2 2 [0, 1] [⟨.getlocal, 0, 0⟩, ⟨.getlocal, 1, 1⟩, ⟨o, 0, 1⟩, ⟨.ret, 0, 0⟩]

theorem C58_division_counterexample :
    (interp (binop .div) [.imm (pnNum (-7)), .imm (pnNum 2)] 10 = some (pnNum (-3)) ∧
      ran (binop .div) (pnNum (-7)) (pnNum 2) 0#64 100 = some (some (pnNum 2147483645, 77#64))) ∧
    (interp (binop .rem) [.imm (pnNum (-7)), .imm (pnNum 2)] 10 = some (pnNum (-1)) ∧
      ran (binop .rem) (pnNum (-7)) (pnNum 2) 0#64 100 = some (some (pnNum 2147483647, 77#64))) ∧
    (interp (binop .bitr) [.imm (pnNum (-8)), .imm (pnNum 1)] 10 = some (pnNum (-4)) ∧
      ran (binop .bitr) (pnNum (-8)) (pnNum 1) 0#64 100 = some (some (pnNum 2147483644, 77#64))) ∧
    (interp (binop .div) [.imm (pnNum (2^32)), .imm (pnNum 2)] 10 = some (pnNum (2^31)) ∧
      ran (binop .div) (pnNum (2^32)) (pnNum 2) 0#64 100 = some (some (pnNum 0, 77#64))) ∧
    (interp (binop .div) [.imm (pnNum 5), .imm (pnNum (2^32))] 10 = some (pnNum 0) ∧
      ran (binop .div) (pnNum 5) (pnNum (2^32)) 0#64 100 = some none) := by decide +kernel

/-- REFUTED for variables not yet assigned: the interpreter finds nil in a first call (its stack is zeroed), the machine
code finds what was on the stack before. -/
def unset : Proto := proto 1 1 [] [⟨.getlocal, 0, 0⟩, ⟨.ret, 0, 0⟩]

theorem C58_unset_variable_counterexample : interp unset [] 10 = some PN_NIL ∧
    ran unset 0#64 0#64 0xdead#64 100 = some (some (0xdead#64, 77#64)) := by decide +kernel

/-- REFUTED for functions of four or more parameters: `%rbx`, which belongs to the caller, is overwritten (vm-x86.c:402-408
uses it to move arguments found on the stack). -/
def four : Proto := proto 4 1 [0, 1, 2, 3] [⟨.getlocal, 0, 0⟩, ⟨.ret, 0, 0⟩]

theorem C58_rbx_counterexample : ran four (pnNum 1) (pnNum 2) 0#64 100 = some (some (pnNum 1, 0#64)) := by decide +kernel

/-- REFUTED for functions of more than 1024 instructions: code generation leaves its arrays (vm.c:217, 226-227, 291-298). -/
theorem C58_long_function_counterexample (E : Env) (f : Proto) (h : 1024 < f.len) : jit E f = none := by
  have key : ∀ n pos g, pos ≤ 1024 → 1024 < pos + n → emitAll E f n pos g = none := by
    intro n
    induction n with
    | zero => intro pos g h1 h2; omega
    | succ n ih =>
      intro pos g h1 h2
      unfold emitAll
      cases he : emit E f pos g with
      | none => rfl
      | some g' =>
        have hp : pos < 1024 := by
          unfold emit at he
          split at he
          · assumption
          · cases he
        exact ih (pos + 1) g' (by omega) (by omega)
  unfold jit
  rw [key f.len 0 _ (by omega) (by omega)]
  rfl

end Potion.Jit
