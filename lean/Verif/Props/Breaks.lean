import Verif.Props.CompileAll
import Verif.Props.Send
/-!
C69: the array of the `break`s of a loop. `loop: break, break, …, break.` compiles exactly if there are at most 1024 of
them; one more is stored behind the array (compile.c:744, `MAX_JUMPS` 256), on the C stack of the compiler.
-/
namespace Potion.CompileAll
open Potion.Compile (bytesOf MAX_JUMPS)
open Peg

/-- A message without receiver, arguments or block is a statement of its own. -/
def wordStmt (s : String) (blk : Tree) : Tree := .node .expr (.tup [.node .msg (.str (bytesOf s)) .nil blk]) .nil .nil

/-- The tree of `loop: break, …, break.` with `n` times `break`. -/
def breaks (n : Nat) : Tree :=
  .node .code (.tup [wordStmt "loop" (.node .block (.tup (List.replicate n (wordStmt "break" .nil))) .nil .nil)]) .nil .nil

theorem each_one (g : Nat → Tree → CSt → Option CSt) (i : Nat) (v : Tree) (st : CSt) : each g i [v] st = g i v st := by
  simp only [each]; cases g i v st <;> rfl

theorem asmb_break (dl : List (BitVec 8) → Bool) (n : Nat) (st : CSt) (bs cs : List Nat) (h : st.loop = some (bs, cs)) :
    (bs.length < MAX_JUMPS → ∃ st', asmb dl (n + 2) (wordStmt "break" .nil) 0 0 st = some st' ∧
      ∃ l, st'.loop = some (bs ++ [l], cs)) ∧
    (¬ bs.length < MAX_JUMPS → asmb dl (n + 2) (wordStmt "break" .nil) 0 0 st = none) := by
  have hr : ∀ (st : CSt) r, (st.regs r).loop = st.loop := fun st r => by unfold CSt.regs; split <;> rfl
  have key : asmb dl (n + 2) (wordStmt "break" .nil) 0 0 st =
      (jumpMsg true ((st.regs 0).regs 0)).map fun st => st.regs 0 := by
    have h1 : asmb dl (n + 2) (wordStmt "break" .nil) 0 0 st =
        each (fun i v => asmb dl (n + 1) v i 0) 0 [.node .msg (.str (bytesOf "break")) .nil .nil] (st.regs 0) := rfl
    rw [h1, each_one]
    have h2 : ∀ st, asmb dl (n + 1) (.node .msg (.str (bytesOf "break")) .nil .nil) 0 0 st =
        msgNode dl (asmb dl n) .msg (.str (bytesOf "break")) .nil .nil 0 0 (st.regs 0) := fun _ => rfl
    rw [h2]
    unfold msgNode
    simp only [show bytesOf "break" ≠ bytesOf "if" by decide +kernel, show bytesOf "break" ≠ bytesOf "elsif" by decide +kernel,
      show bytesOf "break" ≠ bytesOf "else" by decide +kernel, show bytesOf "break" ≠ bytesOf "class" by decide +kernel,
      show bytesOf "break" ≠ bytesOf "extern" by decide +kernel, show bytesOf "break" ≠ bytesOf "while" by decide +kernel,
      show bytesOf "break" ≠ bytesOf "loop" by decide +kernel, show bytesOf "break" ≠ bytesOf "return" by decide +kernel, if_false, if_true]
  rw [key]
  unfold jumpMsg
  rw [hr, hr, h]
  simp only [if_true]
  constructor
  · intro hlt
    rw [if_pos hlt]
    exact ⟨_, rfl, _, by rw [hr]⟩
  · intro hge
    rw [if_neg hge]; rfl

theorem each_breaks (dl : List (BitVec 8) → Bool) (n : Nat) : ∀ (k i : Nat) (st : CSt) (bs cs : List Nat),
    st.loop = some (bs, cs) →
    ((each (fun _ v => asmb dl (n + 2) v 0 0) i (List.replicate k (wordStmt "break" .nil)) st).isSome ↔
      (k = 0 ∨ bs.length + k ≤ MAX_JUMPS))
  | 0, i, st, bs, cs, _ => by simp [each]
  | k + 1, i, st, bs, cs, h => by
    rw [List.replicate_succ, each]
    by_cases hlt : bs.length < MAX_JUMPS
    · obtain ⟨st', e, l, h'⟩ := (asmb_break dl n st bs cs h).1 hlt
      rw [e]
      simp only []
      rw [each_breaks dl n k (i + 1) st' _ cs h']
      simp only [List.length_append, List.length_singleton]
      omega
    · rw [(asmb_break dl n st bs cs h).2 hlt]
      simp only [Option.isSome_none]
      constructor
      · intro h; cases h
      · intro h; omega

/-- C69 is not true of a loop with more than 1024 `break`s: `loop: break, …, break.` is compiled if and only if there are at
most 1024 of them; the next one is written outside of the array, so the model has no code for it. -/
theorem C69_refuted_breaks (dl : List (BitVec 8) → Bool) (fuel n : Nat) (hf : 6 ≤ fuel) :
    (compile dl fuel (breaks n)).isSome ↔ n ≤ 1024 := by
  obtain ⟨m, rfl⟩ : ∃ m, fuel = m + 6 := ⟨fuel - 6, by omega⟩
  unfold compile
  rw [Option.isSome_map]
  unfold compileFn breaks
  dsimp only
  have hs : ∃ s, sigCompile Tree.nil = some s := ⟨_, rfl⟩
  obtain ⟨⟨sg, locals⟩, hs⟩ := hs
  rw [hs]
  simp only [Option.bind_eq_bind, Option.bind_some]
  generalize CSt.open locals [] = st
  have h1 : ∀ blk st, asmb dl (m + 6) (.node .code (.tup [wordStmt "loop" blk]) .nil .nil) 0 0 st =
      each (fun _ v => asmb dl (m + 5) v 0 0) 0 [wordStmt "loop" blk] (st.regs 0) := fun _ _ => rfl
  rw [h1, each_one]
  have h2 : ∀ blk st, asmb dl (m + 5) (wordStmt "loop" blk) 0 0 st =
      each (fun i v => asmb dl (m + 4) v i 0) 0 [.node .msg (.str (bytesOf "loop")) .nil blk] (st.regs 0) := fun _ _ => rfl
  rw [h2, each_one]
  have h3 : ∀ blk st, asmb dl (m + 4) (.node .msg (.str (bytesOf "loop")) .nil blk) 0 0 st =
      msgNode dl (asmb dl (m + 3)) .msg (.str (bytesOf "loop")) .nil blk 0 0 (st.regs 0) := fun _ _ => rfl
  rw [h3]
  unfold msgNode
  simp only [show bytesOf "loop" ≠ bytesOf "if" by decide +kernel, show bytesOf "loop" ≠ bytesOf "elsif" by decide +kernel,
    show bytesOf "loop" ≠ bytesOf "else" by decide +kernel, show bytesOf "loop" ≠ bytesOf "class" by decide +kernel,
    show bytesOf "loop" ≠ bytesOf "extern" by decide +kernel, show bytesOf "loop" ≠ bytesOf "while" by decide +kernel, if_false, if_true]
  generalize (((st.regs 0).regs 0).regs 0) = st
  unfold loopMsg
  have hn : isNil Tree.nil = true := rfl
  have hb : ∀ l, isNil (.node .block l .nil .nil) = false := fun _ => rfl
  simp only [hn, hb, Bool.not_false, Bool.and_true, if_true]
  unfold loopBody
  simp only [hb, Bool.false_eq_true, if_false, Option.bind_eq_bind]
  have h4 : ∀ vs st, asmb dl (m + 3) (.node .block (.tup vs) .nil .nil) 0 0 st =
      each (fun _ v => asmb dl (m + 2) v 0 0) 0 vs (st.regs 0) := fun _ _ => rfl
  have h5 := each_breaks dl m n 0 (CSt.regs { st.wide (0 + 1) with loop := some ([], []) } 0) [] []
    (by unfold CSt.regs; split <;> rfl)
  have h6 : (n = 0 ∨ ([] : List Nat).length + n ≤ MAX_JUMPS) ↔ n ≤ 1024 := by simp [MAX_JUMPS]; omega
  rw [h6] at h5
  rw [← h5]
  rw [show (asmb dl (m + 3) (.node .block (.tup (List.replicate n (wordStmt "break" .nil))) .nil .nil) 0 0
    { st.wide (0 + 1) with loop := some ([], []) }) = _ from h4 _ _]
  cases each (fun _ v => asmb dl (m + 2) v 0 0) 0 (List.replicate n (wordStmt "break" .nil))
    (CSt.regs { st.wide (0 + 1) with loop := some ([], []) } 0) <;> simp

/-- The tree is the one of the text. -/
example : (match Peg.parse 1000 (bytesOf "loop: break, break, break.") with
    | some (some t) => Potion.Send.eqT t (breaks 3)
    | _ => false) = true := by decide +kernel

end Potion.CompileAll
