import Verif.Proof.Enter
import Verif.Model.Compile
/-!
C42 (what a called function finds in its frame), C48 (what the caller finds in its own frame afterwards).

`WFp` (Spec/Frames.lean) says which functions are well formed.
-/
namespace Potion.Vm
open Potion

/-- The state `s` occurs in a run of the program `f`. -/
def Reached (f : Proto) (s : State) : Prop :=
  ∃ (w : PN) (s0 : State) (n : Nat), start f (.imm w) [] = some s0 ∧ State.goes n s0 s

theorem Reached.ok {f s} (hf : WFp f) : Reached f s → Ok s := by
  rintro ⟨w, s0, n, h1, h2⟩
  exact Ok.goes n _ _ (Ok.start hf (.imm w) (by simp) h1) h2

/-- The call instruction `s` is about to run has been completed in `t`, leaving everything in the frame of the caller but
the register of the result as it was. -/
structure Returned (s t : State) : Prop where
  f : t.f = s.f
  pos : t.pos = s.pos + 1
  cur : t.cur = s.cur
  same : ∀ k, k < s.rbase + s.fsize s.f → (k : Int) ≠ s.rbase + (s.f.code s.pos).a → t.stack k = s.stack k

/-- C48: from a call on, the caller's variables, temporaries, and everything below on the stack are unchanged as long as the
called function runs, whatever it does (including further calls), and also when it returns, except for the register of
the result. Variables captured by closures live in cells on the heap, and may change. Partial: for functions whose
parameters have no default values (see `C48_refuted`). -/
theorem C48_frames_partial (f : Proto) (hf : WFp f) (s s1 : State) (hr : Reached f s) (hpos : s.pos < s.f.len)
    (hop : (s.f.code s.pos).op = .call) (h1 : s.step = .run s1) (n : Nat) (s2 : State) (h2 : State.goes n s1 s2) :
    (∃ m t, m ≤ n ∧ State.goes m s1 t ∧ Returned s t) ∨
    (s.rbase + s.fsize s.f < s2.cur ∧ ∀ k, k < s.rbase + s.fsize s.f → s2.stack k = s.stack k) := by
  have ok := hr.ok hf
  obtain ⟨hlen, _, _, hcode, _⟩ := ok.wf
  have hc : s.call (s.f.code s.pos) = .run s1 := by
    unfold State.step at h1
    rw [if_pos hpos] at h1
    simp only [hop] at h1
    exact h1
  have htp : tp s.grow s.f s.cur = s.rbase + s.fsize s.f := by unfold tp State.fsize; rw [rbase_eq]; omega
  have inv : Inv s.grow s.f s.pos s.cur s.stack s1 :=
    call_enters ok.heapOk rfl hc fun st a b c => ⟨.base b c, a⟩
  rcases Inv.goes (by omega) n s1 s2 inv h2 with h | ⟨m, t, hm, h3, h4⟩
  · right
    have := h.chain.ge
    refine ⟨by omega, fun k hk => h.same k (by omega)⟩
  · left
    refine ⟨m, t, hm, h3, h4.f, h4.pos, h4.cur, fun k hk hne => h4.same k (by omega) (by rwa [rbase_eq] at hne)⟩

/-- C42: a called function starts with each parameter bound to its argument, and with its receiver and the captured
variables of its closure in place. Partial: its other locals are not unset, see `C42_refuted`. -/
theorem C42_arguments_partial (f : Proto) (hf : WFp f) (s s1 : State) (hr : Reached f s) (hpos : s.pos < s.f.len)
    (hop : (s.f.code s.pos).op = .call) (h1 : s.step = .run s1) :
    ∃ (n : Nat) (g : Proto) (up : List Val), s.rd s.rbase (s.f.code s.pos).a = some (.obj n) ∧ s.heap[n]? = some (.clo g up) ∧
      s1.f = g ∧ s1.pos = 0 ∧ s1.heap = s.heap ∧
      s.rd s.rbase ((s.f.code s.pos).a + 1) = some (s1.stack s1.rbase) ∧ s1.stack (s1.rbase - 1) = s1.stack s1.rbase ∧
      (∀ (j : Nat) (v : Val), up[j]? = some v → s1.stack (s1.cur + j) = v) ∧
      ∀ (j i : Nat), g.params[j]? = some i → s.rd s.rbase ((s.f.code s.pos).a + 2 + j) = some (s1.stack (s1.lbase + i)) := by
  have ok := hr.ok hf
  have hc : s.call (s.f.code s.pos) = .run s1 := by
    unfold State.step at h1
    rw [if_pos hpos] at h1
    simp only [hop] at h1
    exact h1
  obtain ⟨n, g, up, self, args, t, e1, e2, e3, e4, e5, e6⟩ := call_run ok.heapOk hc
  obtain ⟨wg, _, hul⟩ : WFp g ∧ _ ∧ _ := ok.heap _ (List.mem_of_getElem? e2)
  obtain ⟨_, _, hpar, _, _⟩ := wg
  obtain ⟨l1, l2⟩ := reads_at _ _ _ e4
  have tf : t.f = g := by rw [e5]
  have tpos : t.pos = 0 := by rw [e5]
  have th : t.heap = s.heap := by rw [e5]
  obtain ⟨a1, a2, a3, a4, a5, a6, a7, a8, _⟩ := enter_at (by rw [tf]; exact hpar.1) (by rw [tf]; exact hpar.2) (by rw [tf]; exact hul)
    (by rw [tf]; exact l1) e6
  have hrb : s1.rbase = t.rbase := by unfold State.rbase; rw [a1, a3]
  have hlb : s1.lbase = t.lbase := by unfold State.lbase; rw [a1, a3]
  refine ⟨n, g, up, e1, e2, by rw [a1, tf], by rw [a2, tpos], by rw [a4, th], ?_, ?_, fun j v hj => ?_, fun j i hj => ?_⟩
  · rw [hrb, a8]; exact e3
  · rw [hrb, a8, a7]
  · rw [a3]; exact a5 j v hj
  · have hlt : j < args.length := by rw [l1]; exact (List.getElem?_eq_some_iff.1 hj).1
    obtain ⟨v, hv⟩ : ∃ v, args[j]? = some v := ⟨args[j], List.getElem?_eq_getElem hlt⟩
    rw [hlb, a6 j i v (by rw [tf]; exact hj) hv]
    exact l2 j v hv

/-! Examples of the hypotheses, and counterexamples to the full statements. -/

def asmb (l : List Ins) : Nat → Ins := fun k => (l[k]?).getD ⟨.other, 0, 0⟩

/-- The word a program returns when it ends within `m` turns of the interpreter. -/
def result (m : Nat) (f : Proto) : Option PN :=
  match (start f (.imm PN_NIL) []).bind (State.steps m) with
  | some (.done (.imm w) _) => some w
  | _ => none

/-- The state after `m` turns. -/
def State.after : Nat → State → Option State
  | 0, s => some s
  | m+1, s => match s.step with
    | .run s => State.after m s
    | _ => none

/-- Function, position, frame, and local number 1, if it is an immediate. -/
def view (s : State) : Nat × Nat × Nat × Option PN :=
  (s.f.id, s.pos, s.cur, match s.rd s.lbase 1 with | some (.imm w) => some w | _ => none)
def trace (m : Nat) (f : Proto) : Option (Nat × Nat × Nat × Option PN) := ((start f (.imm PN_NIL) []).bind (State.after m)).map view

/-- What `g = <function>, g(w), g(w') ...` compiles to (compile.c:836-850, 862-880). -/
def caller (g : Proto) (args : List PN) : Proto :=
  let code := [⟨.proto, 0, 0⟩, ⟨.setlocal, 0, 0⟩] ++
    args.flatMap (fun w => [⟨.getlocal, 0, 0⟩, ⟨.self, 1, 0⟩, ⟨.loadpn, 2, w.toInt⟩, ⟨.call, 0, 2⟩]) ++ [⟨.ret, 0, 0⟩]
  { id := 0, upvalsize := 0, localsize := 1, params := [], minargs := 0, defaults := [], stack := 3, values := [], protos := [g],
    code := asmb code, len := code.length }

/-- `(a): if (a): x = 1. , x.` -/
def exF : Option Proto := Compile.compileFn 1 [Compile.bytesOf "a"]
  (.seq (.ifm (.msg (Compile.bytesOf "a")) (.assign (Compile.bytesOf "x") (.value (pnNum 1)))) (.msg (Compile.bytesOf "x")))

/-- C42 fails as stated: `g(false)` gives `nil` in the first call, but 1 after `g(true)`: it finds the local the earlier
call left on the stack. -/
theorem C42_refuted : exF.bind (fun g => result 50 (caller g [PN_FALSE])) = some PN_NIL ∧
    exF.bind (fun g => result 50 (caller g [PN_TRUE, PN_FALSE])) = some (pnNum 1) := by
  decide +kernel

/-- `(k, n, f, x:=7): if (n == 0): 0. else: f(k, n - 1, f). , n.` (compile.c:615-653, 836-850), with or without the default. -/
def recF (d : Option PN) : Proto :=
  let code : List Ins := [⟨.getlocal, 1, 1⟩, ⟨.loadpn, 2, (pnNum 0).toInt⟩, ⟨.eq, 1, 2⟩, ⟨.notjmp, 1, 1⟩,
    ⟨.loadpn, 0, (pnNum 0).toInt⟩, ⟨.testjmp, 1, 8⟩, ⟨.getlocal, 0, 2⟩, ⟨.self, 1, 0⟩, ⟨.getlocal, 2, 0⟩, ⟨.getlocal, 3, 1⟩,
    ⟨.loadpn, 4, (pnNum 1).toInt⟩, ⟨.sub, 3, 4⟩, ⟨.getlocal, 4, 2⟩, ⟨.call, 0, 4⟩, ⟨.getlocal, 0, 1⟩, ⟨.ret, 0, 0⟩]
  { id := 1, upvalsize := 0, localsize := 4, params := if d.isSome then [0, 1, 2, 3] else [0, 1, 2], minargs := 3,
    defaults := [none, none, none, d], stack := 5, values := [], protos := [], code := asmb code, len := code.length }

/-- `f = <recF>, f(5, 2, f)` -/
def recMain (d : Option PN) : Proto :=
  let code : List Ins := [⟨.proto, 0, 0⟩, ⟨.setlocal, 0, 0⟩, ⟨.getlocal, 0, 0⟩, ⟨.self, 1, 0⟩, ⟨.loadpn, 2, (pnNum 5).toInt⟩,
    ⟨.loadpn, 3, (pnNum 2).toInt⟩, ⟨.getlocal, 4, 0⟩, ⟨.call, 0, 4⟩, ⟨.ret, 0, 0⟩]
  { id := 0, upvalsize := 0, localsize := 1, params := [], minargs := 0, defaults := [], stack := 5, values := [],
    protos := [recF d], code := asmb code, len := code.length }

theorem asmb_ok {l : List Ins} (h : ∀ i ∈ l, 0 ≤ i.a ∧ 0 ≤ i.b) (k : Nat) : InsOk (asmb l k) := by
  unfold asmb InsOk
  intro _
  rcases hk : l[k]? with _ | i
  · simp
  · have := h i (List.mem_of_getElem? hk)
    simp [this.1, this.2]

theorem recF_ok : WFp (recF none) :=
  .mk (by decide) (by decide) (by decide) (asmb_ok (by decide)) (by intro h hh; cases hh)
theorem recMain_ok : WFp (recMain none) :=
  .mk (by decide) (by decide) (by decide) (asmb_ok (by decide)) (by intro h hh; obtain rfl := List.mem_singleton.1 hh; exact recF_ok)

/-- Without default: the caller's `n` is 2 when the inner call starts (turn 20), and when it has returned (turn 44). -/
example : WFp (recMain none) ∧ trace 20 (recMain none) = some (1, 13, 9, some (pnNum 2)) ∧
    trace 44 (recMain none) = some (1, 14, 9, some (pnNum 2)) ∧ result 100 (recMain none) = some (pnNum 2) :=
  ⟨recMain_ok, by decide +kernel⟩

/-- C48 fails as stated: with the default, each call that leaves out `x` makes the register file of its caller larger
(vm.c:853), also for the frames of this function that are already suspended. In turn 20 the function, with `n = 2`, calls
itself; in turn 44 it has got control back, in a frame one word lower: `n` now is 5. -/
theorem C48_refuted : let f := recMain (some (pnNum 7))
    trace 20 f = some (1, 13, 10, some (pnNum 2)) ∧ trace 44 f = some (1, 14, 9, some (pnNum 5)) ∧
    ∀ m, m < 23 → ((trace (21 + m) f).map fun v => decide (10 < v.2.2.1)) = some true := by
  decide +kernel

end Potion.Vm
