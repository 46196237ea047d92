import Verif.Proof.Agree3
/-! The two models of the compiler agree: arguments, functions, messages. -/
namespace Potion.CompileAll
open Potion Potion.Vm Potion.Peg
open Potion.Compile (Name Src u8 bytesOf MAX_JUMPS comp sourceOf messageSrc listSrc argsSrc argsOf blockSrc chainOf stmtsOf seqOf paramsOf namesOf absent argc isAssign keywords)

variable {dl : List (BitVec 8) → Bool} {n : Nat}

theorem not_assign {t : Tree} {S : Src} (hs : sourceOf t = some S) (ha : isAssign S = false) : ∃ k a b c, t = .node k a b c ∧ k ≠ .assign := by
  unfold sourceOf at hs
  split at hs
  · exact ⟨_, _, _, _, rfl, nofun⟩
  · exact ⟨_, _, _, _, rfl, nofun⟩
  · split at hs
    · obtain ⟨S', hS, hs⟩ := Option.bind_eq_some_iff.1 hs
      obtain rfl := Option.some.inj hs
      simp [isAssign] at ha
    · contradiction
  · exact ⟨_, _, _, _, rfl, nofun⟩
  · exact ⟨_, _, _, _, rfl, nofun⟩
  · refine ⟨_, _, _, _, rfl, ?_⟩
    rintro rfl
    split at hs <;> simp [Compile.binOf] at hs
  · contradiction

/-- The arguments of a call. -/
theorem args_sim (H : Sim dl n) {freg k : Nat} : ∀ (l : List Tree) {S m c d c' reg}, sizeOf l ≤ n → argsOf l = some S → FineAll l = true → Rel m c d → reg < 256 →
    comp S false 0 (u8 (reg + 1)) c = some c' → ∃ d', argItems (asmb dl n) freg k l reg d = some (d', u8 (reg + argc S)) ∧ Rel m c' d'
  | [], S, m, c, d, c', reg, _, hs, _, hr, hg, hc => by
    rw [argsOf] at hs
    obtain rfl := Option.some.inj hs
    rw [comp] at hc
    obtain rfl := Option.some.inj hc
    exact ⟨d, by simp [argItems, argc, u8, Nat.mod_eq_of_lt hg], hr⟩
  | a :: l, S, m, c, d, c', reg, hz, hs, hf, hr, hg, hc => by
    rw [argsOf] at hs
    obtain ⟨A, hA, hs⟩ := Option.bind_eq_some_iff.1 hs
    obtain ⟨B, hB, hs⟩ := Option.bind_eq_some_iff.1 hs
    obtain rfl := Option.some.inj hs
    simp only [comp] at hc
    split at hc
    · contradiction
    · rename_i hn
      split at hc
      · contradiction
      · rename_i c1 h1
        obtain ⟨d1, e1, r1⟩ := H.src (size_cons hz).1 hA (FineAll_cons hf).1 (hr.wide (reg + 1)) h1
        obtain ⟨d2, e2, r2⟩ := args_sim H l (size_cons hz).2 hB (FineAll_cons hf).2 r1 (Nat.mod_lt _ (by omega)) hc
        obtain ⟨kd, x, y, z, rfl, hk⟩ := not_assign hA (by simpa using hn)
        refine ⟨d2, ?_, r2⟩
        rw [argItems]
        have e0 : argItem (asmb dl n) freg k (.node kd x y z) ((reg + 1) % 256) (d.wide (reg + 1)) = asmb dl n (.node kd x y z) 0 ((reg + 1) % 256) (d.wide (reg + 1)) := by
          cases kd <;> first | rfl | exact absurd rfl hk
        rw [e0]
        refine Option.bind_eq_some_iff.2 ⟨d1, e1, ?_⟩
        rw [e2]
        congr 2
        simp only [argc, u8]; omega

/-- Parameters. -/
theorem names_sig : ∀ (l : List Tree) {ps : List Name} (s : Sg), namesOf l = some ps →
    l.foldlM (fun s v => sigItem v s) s = some (s.1 ++ strs ps, ps.foldl (fun l p => (put l (.str p)).1) s.2)
  | [], ps, s, h => by
    rw [namesOf] at h
    obtain rfl := Option.some.inj h
    simp
  | a :: l, ps, s, h => by
    unfold namesOf at h
    split at h
    · contradiction
    · rename_i x b c b' c' l' he
      obtain ⟨rfl, rfl⟩ := List.cons.inj he
      split at h
      · obtain ⟨qs, hq, h⟩ := Option.bind_eq_some_iff.1 h
        obtain rfl := Option.some.inj h
        rw [List.foldlM_cons]
        show Option.bind (some (s.1 ++ [Tree.str x], (put s.2 (.str x)).1)) _ = _
        rw [Option.bind_some, names_sig l _ hq]
        simp
      · contradiction
    · contradiction
theorem foldl_put (ps : List Name) : ∀ l : List Name, ps.foldl (fun l p => (put l (.str p)).1) (strs l) = strs (ps.foldl (fun l p => (Compile.put l p).1) l) := by
  induction ps with
  | nil => intro l; rfl
  | cons p ps ih =>
    intro l
    rw [List.foldl_cons, List.foldl_cons, put_str]
    exact ih _
theorem sig_sim {t : Tree} {ps : List Name} (h : paramsOf t = some ps) :
    sigCompile t = some (strs ps, strs (ps.foldl (fun l p => (Compile.put l p).1) [])) := by
  unfold paramsOf at h
  split at h
  · rename_i w b c
    split at h
    · rename_i hw
      simp only [Bool.and_eq_true, beq_iff_eq] at hw
      obtain ⟨⟨rfl, -⟩, -⟩ := hw
      obtain rfl := Option.some.inj h
      rfl
    · contradiction
  · rename_i l b c
    split at h
    · have := names_sig l ([], []) h
      rw [show ([] : List Tree) = strs [] from rfl, foldl_put] at this
      show l.foldlM (fun s v => sigItem v s) ([], []) = _
      simpa using this
    · contradiction
  · contradiction

theorem block_kind {b : Tree} {S : Src} (h : blockSrc b = some S) : ∃ x y z, b = .node .block x y z := by
  unfold blockSrc at h
  split at h
  · exact ⟨_, _, _, rfl⟩
  · contradiction

/-- A function. -/
theorem fn_sim (H : Sim dl n) {a b S ps} (hz : sizeOf b ≤ n) (hp : paramsOf a = some ps) (hs : blockSrc b = some S) (hf : Fine b = true) {m c d c' reg} (hr : Rel m c d)
    (hg : reg < c.stack) (hc : comp (.fn ps S) false 0 reg c = some c') : ∃ d', block (asmb dl n) reg b a d = some d' ∧ Rel m c' d' := by
  simp only [comp] at hc
  rw [noop hg] at hc
  split at hc
  · contradiction
  · rename_i g hb
    have r0 := rel_open (ps := ps) (o := (c.locals, c.upvals) :: c.outer) (c.next + 1) hr.linked
    obtain ⟨g', e1, r1⟩ := H.blk hz hs hf r0 hb
    have U := Compile.comp_up _ _ _ _ _ _ hb
    split at hc
    · contradiction
    · rename_i ls us out ho
      obtain rfl := Option.some.inj hc
      have fo := U.rest.outer
      have lk := r1.linked
      unfold Compile.CSt.chain at lk
      rw [ho] at fo lk
      obtain ⟨⟨e3, -⟩, -⟩ := List.forall₂_cons.1 fo
      simp only [] at e3
      subst e3
      obtain ⟨x, y, z, rfl⟩ := block_kind hs
      have e2 : compileFn (asmb dl n) (.node .block x y z) a ((d.locals, d.upvals) :: d.outer) = some (g'.close (strs ps), g'.outer) := by
        unfold compileFn
        dsimp only
        rw [sig_sim hp, hr.locals, hr.upvals, hr.outer]
        show Option.bind (asmb dl n (.node .block x y z) 0 0 (CSt.open _ (outs ((c.locals, c.upvals) :: c.outer)))) _ = _
        rw [e1]; rfl
      refine ⟨CSt.captures (CSt.asm { d with upvals := strs us, outer := outs out, protos := d.protos ++ [g'.close (strs ps)] } .proto reg d.protos.length) reg (strs g.upvals), ?_, ?_⟩
      rotate_left
      · refine Rel.captures (c := Compile.CSt.asm { c with upvals := us, outer := out, protos := c.protos ++ [g.close c.next ps], next := g.next } _ _ _)
          (d := CSt.asm { d with upvals := strs us, outer := outs out, protos := d.protos ++ [g'.close (strs ps)] } .proto reg d.protos.length) reg g.upvals ?_ ?_
        · have hl : (d.protos.length : Int) = ((c.protos ++ [g.close c.next ps]).length - 1 : Nat) := by
            rw [List.length_append, hr.protos.length_eq]; simp
          rw [hl]
          refine Rel.asm ?_ rfl _ _
          exact { code := hr.code, len := hr.len, stack := hr.stack, locals := hr.locals, upvals := rfl, values := hr.values, loop := hr.loop, outer := rfl
                  protos := List.rel_append hr.protos (.cons (rel_close r1 _ U.locals) .nil), linked := lk.2 }
        · intro x hx
          exact ((lk.1 x hx).2).symm
      · unfold block
        rw [e2, r1.outer, ho]
        show some (CSt.proto { d with upvals := strs us, outer := outs out } (g'.close (strs ps)) reg) = _
        unfold CSt.proto
        rw [show (g'.close (strs ps)).upvals = strs g.upvals from r1.upvals]

end Potion.CompileAll
