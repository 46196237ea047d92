import Verif.Proof.Listing
import Verif.Spec.Agree
/-! C82: the listing of a function. -/
namespace Potion.Show
open Potion Potion.Dec
open Potion.Spec hiding Op
open Potion.Bytes hiding Op
open Potion.Sig (Item Decl encode sigText)
open Potion.CompileAll (Ins Op)

theorem paths_ok {values : List (List Byte)} {paths : List Nat} (h : ∀ p ∈ paths, p < values.length) :
    (paths.map fun (p : Nat) => tupleAt values p) = (paths.map fun p => values.getD p []).map some := by
  rw [List.map_map]
  refine List.map_congr_left fun p hp => ?_
  have := h p hp
  rw [tupleAt_ok (by omega)]
  rfl

/-- What follows the first words of the listing. -/
def after (name : Option (List Byte)) (sig : List Decl) (stack : Nat) (paths : List Nat) (locals upvals values : List (List Byte)) (protos : List Byte) (code : List Ins) : List Byte :=
  chars ": " ++ natural (4 * code.length) ++ chars " bytes\n" ++
    (chars "; " ++ name.getD [] ++ chars "(") ++ sigText sig ++ (chars ") " ++ natural stack ++ chars " registers\n") ++ rows ".path /" 0 (paths.map fun p => values.getD p []) ++
    rows ".local " 0 locals ++ rows ".upval " 0 upvals ++ rows ".value " 0 values ++ protos ++ lines locals values code.length 0 code ++ chars "; function end\n"

theorem text_after (name sig stack paths locals upvals values protos code) : (LFn.mk name sig stack paths locals upvals values protos code).text =
    chars "; function definition" ++ after name sig stack paths locals upvals values protos.text code := by
  have e1 : chars "; function definition: " = chars "; function definition" ++ chars ": " := by decide
  rw [LFn.text, e1, after]
  simp only [List.append_assoc]

theorem heading_ok (junk) (name : Option (List Byte)) : Grows (heading junk name) (chars "; " ++ name.getD [] ++ chars "(") := by
  cases name with
  | none => exact Grows.put' junk rfl
  | some n => exact Grows.put junk _

theorem protoOut_ok (junk) (name : Option (List Byte)) (sig : List Decl) (stack : Nat) (paths : List Nat) (locals upvals values : List (List Byte)) (code : List Ins)
    (inner : Option Buf → Option Buf) (protos : List Byte) (h1 : ∀ d ∈ sig, d.Plain) (h2 : stack < 2 ^ 31) (h3 : ∀ p ∈ paths, p < values.length)
    (h4 : ∀ i ∈ code, InsOk locals values i) (hi : Grows inner protos) :
    Grows (protoOut junk name (encode sig) stack paths locals upvals values code inner) (after name sig stack paths locals upvals values protos code) := by
  refine .of fun hl => ?_
  have hc : code.length < 2 ^ 31 := by
    have := lines_length locals values code.length code 0
    rw [after] at hl
    simp only [List.length_append] at hl
    omega
  have hs : (sigText sig).length < 2 ^ 31 := by
    rw [after] at hl
    simp only [List.length_append] at hl
    omega
  have g1 : Grows (put junk (chars ": " ++ natText 20 (4 * code.length) ++ chars " bytes\n")) (chars ": " ++ natural (4 * code.length) ++ chars " bytes\n") :=
    Grows.put' junk (by rw [natural_text (by omega)])
  have g3 : Grows (put junk (chars ") " ++ natText 20 stack ++ chars " registers\n")) (chars ") " ++ natural stack ++ chars " registers\n") :=
    Grows.put' junk (by rw [natural_text (by omega)])
  have g4 := section_ok junk ".path /" (paths.map fun p => values.getD p [])
  rw [← paths_ok h3] at g4
  have a1 := (g1.comp (heading_ok junk name)).comp (Grows.obj junk (C81_signature_partial junk sig h1 hs))
  have a2 := (((a1.comp g3).comp g4).comp (section_ok junk ".local " locals)).comp (section_ok junk ".upval " upvals)
  have a3 := (a2.comp (section_ok junk ".value " values)).comp hi
  have a4 := (a3.comp (insLoop_ok junk locals values code h4)).comp (Grows.put junk (chars "; function end\n"))
  have e : protoOut junk name (encode sig) stack paths locals upvals values code inner = _ := funext fun o => protoOut.eq_1 ..
  rw [e, after]
  exact a4

mutual
theorem proto_ok (junk) : ∀ f : LFn, f.Ok → f.text.length < 2 ^ 31 → protoString junk f = some f.text
  | .mk name sig stack paths locals upvals values protos code, h, hl => by
    obtain ⟨b0, e0, h0⟩ := byteStr2_spec junk (chars "; function definition") (by decide)
    have g := protoOut_ok junk name sig stack paths locals upvals values code (fun out => protoLoop junk protos out) protos.text h.1 h.2.1 h.2.2.1 h.2.2.2.1
      (protos_ok junk protos h.2.2.2.2)
    rw [text_after] at hl ⊢
    rw [List.length_append] at hl
    obtain ⟨b1, e2, h6⟩ := g b0 _ h0 hl
    rw [protoString, e0, e2, Option.map_some, strB_ok h6]
theorem protos_ok (junk) : ∀ l : LFns, l.Ok → Grows (fun out => protoLoop junk l out) l.text
  | .nil, _ => Grows.id rfl
  | .cons f l, h => .of fun hl => by
    have e : (LFns.cons f l).text = f.text ++ l.text := rfl
    rw [e, List.length_append] at hl
    have e2 : (fun out => protoLoop junk (.cons f l) out) = fun out => protoLoop junk l (obj junk (protoString junk f) out) := by funext o; rw [protoLoop]
    rw [e, e2]
    exact (Grows.obj junk (proto_ok junk f h.1 (by omega))).comp (protos_ok junk l h.2)
end

/-- C82: the listing of a function is that of the specification: the heading, the rows of the sections in order, the listings of the functions inside, and the
instructions in order, each with its number, its name, its operands and its remark. -/
theorem C82_listing_partial (junk : Nat → Byte) (f : LFn) (h : f.Ok) (hl : f.text.length < 2 ^ 31) : protoString junk f = some f.text := proto_ok junk f h hl

/-- C82: the remark of a jump names the line of the instruction that is executed next if it is taken: when the interpreter is at a jump and goes on at `s'.pos`, the
remark is `; to n` for the number `n` of the line of that instruction, or the jump is conditional and execution goes on with the next line. -/
theorem C82_jump (locals values : List (List Byte)) (s s' : Vm.State) (k : Nat) (i : Vm.Ins) (hk : s.pos = k) (hi : s.f.code k = i)
    (hj : i.op = .jmp ∨ i.op = .testjmp ∨ i.op = .notjmp) (hd : 0 ≤ (k : Int) + 1 + (if i.op = .jmp then i.a else i.b)) (hs : s.step = .run s') :
    remark locals values k (CompileAll.insOf i) = chars "; to " ++ integer ((s'.pos : Int) + 1) ∨ (i.op ≠ .jmp ∧ s'.pos = k + 1) := by
  obtain ⟨op, a, b⟩ := i
  dsimp only at hj hd
  unfold Vm.State.step at hs
  rw [hk] at hs
  split at hs
  · rw [hi] at hs
    rcases hj with rfl | rfl | rfl
    · simp only [Vm.Res.run.injEq] at hs
      subst hs
      simp only [if_true] at hd
      left
      show chars "; to " ++ integer ((k : Int) + a + 2) = _
      congr 2
      dsimp only
      omega
    · dsimp only at hs
      split at hs
      · rename_i v _
        simp only [Vm.Res.run.injEq] at hs
        subst hs
        by_cases hv : Vm.vtest v = true
        · left
          show chars "; to " ++ integer ((k : Int) + b + 2) = _
          congr 2
          dsimp only
          rw [if_pos hv]
          rw [if_neg (by decide)] at hd
          omega
        · right
          exact ⟨nofun, by dsimp only; rw [if_neg hv]⟩
      · cases hs
    · dsimp only at hs
      split at hs
      · rename_i v _
        simp only [Vm.Res.run.injEq] at hs
        subst hs
        by_cases hv : (!Vm.vtest v) = true
        · left
          show chars "; to " ++ integer ((k : Int) + b + 2) = _
          congr 2
          dsimp only
          rw [if_pos hv]
          rw [if_neg (by decide)] at hd
          omega
        · right
          exact ⟨nofun, by dsimp only; rw [if_neg hv]⟩
      · cases hs
  · split at hs <;> cases hs

/-- C82: the numbers of the lines are as wide as the least power of ten that is not below the number of instructions has zeros: all but the last of ten, a hundred, ..
instructions are in one column. -/
theorem C82_columns (n k : Nat) (hk : k < n) (hn : ∀ w, n ≠ 10 ^ w) : (padLeft (Nat.clog 10 n) (natural (k + 1))).length = Nat.clog 10 n := by
  have key : ∀ w m, 0 < w → m < 10 ^ w → (digits m).length ≤ w := by
    intro w
    induction w with
    | zero => intro m h; omega
    | succ w ih =>
      intro m _ h
      rw [digits]
      by_cases h1 : m < 10
      · rw [if_pos h1]; simp
      · rw [if_neg h1, List.length_append]
        rw [Nat.pow_succ] at h
        have h2 : m / 10 < 10 ^ w := by omega
        have hw : 0 < w := by
          rcases w with _ | w
          · simp at h2; omega
          · omega
        have := ih (m / 10) hw h2
        simp; omega
  have hlt : n ≤ 10 ^ Nat.clog 10 n := Nat.le_pow_clog (by omega) n
  have hne := hn (Nat.clog 10 n)
  have hw : 0 < Nat.clog 10 n := by
    rcases h : Nat.clog 10 n with _ | w
    · rw [h] at hlt hne; simp at hlt hne; omega
    · omega
  have := key (Nat.clog 10 n) (k + 1) hw (by omega)
  rw [padLeft, List.length_append, List.length_replicate, natural, List.length_map]
  omega

/-- C82: ten instructions are not: the number of the last takes two columns, those of the others one. -/
theorem C82_refuted_columns : Nat.clog 10 10 = 1 ∧ (padLeft (Nat.clog 10 10) (natural 9)).length = 1 ∧ (padLeft (Nat.clog 10 10) (natural 10)).length = 2 := by
  have e : Nat.clog 10 10 = 1 := by rw [Nat.clog_eq_one] <;> omega
  rw [e]
  refine ⟨rfl, ?_, ?_⟩ <;> simp [padLeft, natural, digits]

/-- An example of the hypotheses: a function with one constant, one local and a loop. -/
def listed1 : LFn := .mk (some (chars "f")) [.param (chars "x") .plain] 3 [] [chars "x"] [] [chars "abc"] .nil
  [⟨.loadk, 0, 0⟩, ⟨.getlocal, 1, 0⟩, ⟨.notjmp, 1, 1⟩, ⟨.jmp, -3, 0⟩, ⟨.ret, 0, 0⟩]
example : listed1.Ok := by
  refine ⟨?_, by omega, by simp, ?_, trivial⟩
  · intro d hd
    simp only [List.mem_cons, List.not_mem_nil, or_false] at hd
    subst hd
    exact ⟨0x78#8, [], rfl, by decide, nofun⟩
  · intro i hi
    simp only [List.mem_cons, List.not_mem_nil, or_false] at hi
    rcases hi with rfl | rfl | rfl | rfl | rfl <;> simp [InsOk]
example : (remark [chars "x"] [chars "abc"] 3 ⟨.jmp, -3, 0⟩, remark [chars "x"] [chars "abc"] 2 ⟨.notjmp, 1, 1⟩, remark [chars "x"] [chars "abc"] 1 ⟨.getlocal, 1, 0⟩) =
    (chars "; to 2", chars "; to 5", chars "; x") := by
  simp [remark, integer, Datum.text, digits, digitChar, chars]

end Potion.Show
