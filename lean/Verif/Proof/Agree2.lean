import Verif.Proof.Agree1
import Verif.Spec.Agree
/-! The two models of the compiler, step by step. -/
namespace Potion.CompileAll
open Potion Potion.Vm Potion.Peg
open Potion.Compile (Name Src u8 bytesOf MAX_JUMPS)

theorem find_map {α : Type} [BEq α] [LawfulBEq α] [DecidableEq α] (k : α → Tree) (hk : ∀ a b, same (k a) (k b) = (a == b)) (x : α) :
    ∀ l : List α, find (l.map k) (k x) = if x ∈ l then some (l.idxOf x) else none
  | [] => by simp [find]
  | a :: l => by
    rw [List.map_cons, find, hk, find_map k hk x l, List.idxOf_cons]
    by_cases h : a = x
    · subst h; simp
    · have h' : x ≠ a := fun e => h e.symm
      by_cases hm : x ∈ l <;> simp [h, h', hm, beq_false_of_ne h]
theorem put_map {α : Type} [BEq α] [LawfulBEq α] [DecidableEq α] (k : α → Tree) (hk : ∀ a b, same (k a) (k b) = (a == b)) (x : α) (l : List α) :
    put (l.map k) (k x) = ((Compile.put l x).1.map k, (Compile.put l x).2) := by
  unfold put Compile.put
  rw [find_map k hk]
  by_cases hm : x ∈ l <;> simp [hm]
theorem same_str (a b : List (BitVec 8)) : same (.str a) (.str b) = (a == b) := rfl
theorem same_imm (a b : PN) : same (.imm a) (.imm b) = (a == b) := rfl

abbrev strs (l : List Name) : List Tree := l.map .str
theorem find_str (x : Name) (l : List Name) : find (strs l) (.str x) = if x ∈ l then some (l.idxOf x) else none := find_map _ same_str x l
theorem put_str (x : Name) (l : List Name) : put (strs l) (.str x) = (strs (Compile.put l x).1, (Compile.put l x).2) := put_map _ same_str x l
theorem put_imm (x : PN) (l : List PN) : put (l.map .imm) (.imm x) = ((Compile.put l x).1.map .imm, (Compile.put l x).2) := put_map _ same_imm x l

def outs (o : List (List Name × List Name)) : List (List Tree × List Tree) := o.map fun p => (strs p.1, strs p.2)

/-- The states are the same; of the stack, what will have been reserved in the end (`m`). -/
structure Rel (m : Nat) (c : Compile.CSt) (d : CSt) : Prop where
  code : d.code = fun k => insOf (c.code k)
  len : d.len = c.len
  stack : c.stack = max d.stack m
  locals : d.locals = strs c.locals
  upvals : d.upvals = strs c.upvals
  values : d.values = c.values.map .imm
  protos : List.Forall₂ Alike c.protos d.protos
  loop : d.loop = c.loop
  outer : d.outer = outs c.outer
  linked : Compile.Linked c.chain

variable {m : Nat} {c : Compile.CSt} {d : CSt}

theorem Rel.asm (h : Rel m c d) {op : Opc} {op' : Op} (ho : op' = opcode op) (a b : Int) : Rel m (c.asm op a b) (d.asm op' a b) := by
  subst ho
  refine { h with code := ?_, len := by simp [CSt.asm, Compile.CSt.asm, h.len] }
  funext k
  simp only [CSt.asm, Compile.CSt.asm, h.code, h.len]
  split <;> rfl
theorem Rel.patchB (h : Rel m c d) (i : Nat) (x : Int) : Rel m (c.patchB i x) (d.patchB i x) := by
  refine { h with code := ?_ }
  funext k
  simp only [CSt.patchB, Compile.CSt.patchB, h.code]
  split <;> rfl
theorem Rel.patchA (h : Rel m c d) (i : Nat) (x : Int) : Rel m (c.patchA i x) (d.patchA i x) := by
  refine { h with code := ?_ }
  funext k
  simp only [CSt.patchA, Compile.CSt.patchA, h.code]
  split <;> rfl
theorem Rel.patchAll (t : Int) : ∀ (l : List Nat) {c : Compile.CSt} {d : CSt}, Rel m c d → Rel m (c.patchAll t l) (d.patchAll t l)
  | [], _, _, h => h
  | i :: l, _, _, h => Rel.patchAll t l (h.patchA i _)
theorem Rel.setLoop (h : Rel m c d) (l) : Rel m { c with loop := l } { d with loop := l } := { h with loop := rfl }
theorem Rel.wide (h : Rel m c d) (n : Nat) : Rel m c (d.wide n) := { h with }
theorem Rel.path (h : Rel m c d) (n : Nat) : Rel m c (d.path n) := { h with }

theorem regs_with (c : Compile.CSt) (r : Nat) : c.regs r = { c with stack := max c.stack (r + 1) } := by
  unfold Compile.CSt.regs
  split
  · rw [Nat.max_eq_right (by omega)]
  · rw [Nat.max_eq_left (by omega)]
theorem regs_with' (d : CSt) (r : Nat) : d.regs r = { d with stack := max d.stack (r + 1) } := by
  unfold CSt.regs
  split
  · rw [Nat.max_eq_right (by omega)]
  · rw [Nat.max_eq_left (by omega)]
theorem Rel.regs (h : Rel m c d) (r : Nat) : Rel m (c.regs r) (d.regs r) := by
  rw [regs_with, regs_with']
  exact { h with stack := by simp only [h.stack]; omega }
/-- Reserved by the one, and pending in the other. -/
theorem Rel.owe (h : Rel m c d) (r : Nat) : Rel (max m (r + 1)) (c.regs r) d := by
  rw [regs_with]
  exact { h with stack := by simp only [h.stack]; omega }
/-- What is owed is reserved. -/
theorem Rel.pay {r : Nat} (h : Rel (max m (r + 1)) c d) : Rel m (c.regs r) (d.regs r) := by
  rw [regs_with, regs_with']
  exact { h with stack := by simp only [h.stack]; omega }
theorem Rel.more (h : Rel m c d) {r : Nat} (hr : r < c.stack) : Rel (max m (r + 1)) c d :=
  { h with stack := by rw [h.stack] at hr ⊢; omega }
theorem regs_regs' (d : CSt) (r : Nat) : (d.regs r).regs r = d.regs r := by
  simp only [regs_with', Nat.max_assoc, Nat.max_self]
/-- A register the state has already: nothing happens. -/
theorem noop {r : Nat} (hr : r < c.stack) : c.regs r = c := Compile.regs_id hr

theorem pushUp_map (x : Name) : ∀ o : List (List Name × List Name), pushUp (.str x) (outs o) = (Compile.pushUp x o).map outs
  | [] => rfl
  | (ls, us) :: r => by
    have ih := pushUp_map x r
    simp only [outs, List.map_cons, pushUp, Compile.pushUp, find_str] at ih ⊢
    by_cases hm : x ∈ ls
    · simp [hm, outs]
    · rw [if_neg hm, if_neg hm, ih]
      cases Compile.pushUp x r <;> simp [outs]

theorem Rel.upval (h : Rel m c d) (x : Name) : (d.upval (.str x)).2 = (c.upval x).2 ∧ Rel m (c.upval x).1 (d.upval (.str x)).1 := by
  unfold CSt.upval Compile.CSt.upval
  have e1 := find_str x c.locals
  have e2 := find_str x c.upvals
  rw [← h.locals] at e1
  rw [← h.upvals] at e2
  have e3 := pushUp_map x c.outer
  rw [← h.outer] at e3
  rw [e1, e2, e3]
  by_cases h1 : x ∈ c.locals
  · simp [h1, h]
  · by_cases h2 : x ∈ c.upvals
    · simp [h1, h2, h]
    · simp only [h1, h2, if_false]
      cases hp : Compile.pushUp x c.outer with
      | none => exact ⟨rfl, h⟩
      | some o =>
        refine ⟨by simp [h.upvals], ?_⟩
        exact { code := h.code, len := h.len, stack := h.stack, locals := h.locals, values := h.values, protos := h.protos, loop := h.loop
                upvals := by simp [h.upvals], outer := rfl
                linked := by
                  have := (Compile.upval_spec c x).2.1.rest.linked h.linked
                  unfold Compile.CSt.upval at this
                  simpa only [h1, h2, if_false, hp] using this }

theorem Rel.var (h : Rel m c d) (x : Name) : (d.var (.str x)).2 = (c.bind x).2 ∧ Rel m (c.bind x).1 (d.var (.str x)).1 := by
  obtain ⟨h1, h2⟩ := h.upval x
  have lk := (Compile.bind_spec c x).2.1.rest.linked h.linked
  unfold Compile.CSt.bind at lk
  unfold CSt.var Compile.CSt.bind
  generalize d.upval (.str x) = r at *
  generalize c.upval x = s at *
  obtain ⟨d1, o⟩ := r
  obtain ⟨c1, o'⟩ := s
  simp only [] at h1 h2
  subst h1
  cases o with
  | some n => exact ⟨rfl, h2⟩
  | none =>
    simp only [CSt.locl, h2.locals, put_str]
    exact ⟨trivial, { h2 with locals := rfl, linked := lk }⟩

theorem Rel.look (h : Rel m c d) {x : Name} {c' up n} (hl : c.look x = some (c', up, n)) : ∃ d', d.look (.str x) = (d', some (up, n)) ∧ Rel m c' d' := by
  obtain ⟨h1, h2⟩ := h.upval x
  unfold Compile.CSt.look at hl
  unfold CSt.look
  generalize d.upval (.str x) = r at *
  generalize c.upval x = s at *
  obtain ⟨d1, o⟩ := r
  obtain ⟨c1, o'⟩ := s
  simp only [] at h1 h2
  subst h1
  cases o with
  | some k =>
    simp only [Option.some.injEq, Prod.mk.injEq] at hl
    obtain ⟨rfl, rfl, rfl⟩ := hl
    exact ⟨_, rfl, h2⟩
  | none =>
    simp only [] at hl
    split at hl
    · rename_i hm
      simp only [Option.some.injEq, Prod.mk.injEq] at hl
      obtain ⟨rfl, rfl, rfl⟩ := hl
      exact ⟨d1, by simp [h2.locals, find_str, hm], h2⟩
    · contradiction

theorem Rel.load (h : Rel m c d) (r : Nat) (v : PN) :
    Rel m (if Ops.immediate v then c.asm .loadpn r v.toInt else Compile.CSt.asm { c with values := (Compile.put c.values v).1 } .loadk r (Compile.put c.values v).2)
      (d.load r (.imm v)) := by
  unfold CSt.load
  simp only []
  split
  · exact h.asm rfl _ _
  · have e := put_imm v c.values
    rw [← h.values] at e
    simp only [CSt.const, e]
    refine Rel.asm (c := { c with values := (Compile.put c.values v).1 }) ?_ rfl _ _
    exact { code := h.code, len := h.len, stack := h.stack, locals := h.locals, upvals := h.upvals, protos := h.protos, loop := h.loop, outer := h.outer, values := rfl, linked := h.linked }

theorem Rel.captures (reg : Nat) : ∀ (xs : List Name) {c : Compile.CSt} {d : CSt}, Rel m c d → (∀ x ∈ xs, x ∈ c.upvals ∨ x ∈ c.locals) →
    Rel m (c.captures reg xs) (d.captures reg (strs xs))
  | [], _, _, h, _ => h
  | x :: xs, c, d, h, hx => by
    have e1 := find_str x c.locals
    have e2 := find_str x c.upvals
    rw [← h.locals] at e1
    rw [← h.upvals] at e2
    rw [Compile.CSt.captures, strs, List.map_cons, CSt.captures, e1, e2]
    by_cases h1 : x ∈ c.upvals
    · simp only [h1, if_true]
      exact Rel.captures reg xs (h.asm rfl _ _) (fun y hy => hx y (by simp [hy]))
    · have h2 : x ∈ c.locals := (hx x (by simp)).resolve_left h1
      simp only [h1, h2, if_true, if_false]
      exact Rel.captures reg xs (h.asm rfl _ _) (fun y hy => hx y (by simp [hy]))

theorem opcode_get (up : Bool) : getOp up = opcode (Compile.getOp up) := by cases up <;> rfl
theorem opcode_set (up : Bool) : setOp up = opcode (Compile.setOp up) := by cases up <;> rfl

/-- A new function. -/
theorem rel_open {ps : List Name} {o : List (List Name × List Name)} (n : Nat) (hl : Compile.Linked o) :
    Rel 0 (Compile.CSt.open ps o n) (CSt.open (strs (ps.foldl (fun l p => (Compile.put l p).1) [])) (outs o)) :=
  ⟨rfl, rfl, rfl, rfl, rfl, rfl, .nil, rfl, rfl, by
    unfold Compile.CSt.chain
    cases o with
    | nil => simp [Compile.CSt.open, Compile.CSt.new, Compile.Linked]
    | cons a o => exact ⟨by simp [Compile.CSt.open, Compile.CSt.new], hl⟩⟩

theorem forall₂_get {α β : Type} {R : α → β → Prop} : ∀ {l : List α} {l' : List β}, List.Forall₂ R l l' → ∀ (i : Nat) (a : α) (b : β), l[i]? = some a → l'[i]? = some b → R a b
  | _, _, .nil, i, a, b, h, _ => by simp at h
  | _, _, .cons h t, 0, a, b, h1, h2 => by
    simp only [List.getElem?_cons_zero, Option.some.injEq] at h1 h2
    subst h1; subst h2; exact h
  | _, _, .cons h t, i + 1, a, b, h1, h2 => forall₂_get t i a b (by simpa using h1) (by simpa using h2)

theorem params_mem (ps : List Name) : ∀ l : List Name, l <+: ps.foldl (fun l p => (Compile.put l p).1) l ∧ ∀ x ∈ ps, x ∈ ps.foldl (fun l p => (Compile.put l p).1) l := by
  induction ps with
  | nil => intro l; exact ⟨List.prefix_refl _, by simp⟩
  | cons p ps ih =>
    intro l
    obtain ⟨h1, h2⟩ := ih (Compile.put l p).1
    obtain ⟨g1, g2, -⟩ := Compile.put_spec l p
    refine ⟨g1.trans h1, fun x hx => ?_⟩
    rcases List.mem_cons.1 hx with rfl | hx
    · exact h1.subset g2
    · exact h2 x hx

theorem rel_close (h : Rel 0 c d) (id : Nat) {ps : List Name} (hp : ps.foldl (fun l p => (Compile.put l p).1) [] <+: c.locals) : Alike (c.close id ps) (d.close (strs ps)) := by
  have h' := h.asm (op := .ret) (op' := .ret) rfl 0 0
  refine .mk rfl (h'.stack.trans (Nat.max_zero _)) ?_ ?_ h'.values h'.len.symm (fun k => congrFun h'.code k) ⟨ps, rfl, ?_⟩ (by simp [Compile.CSt.close, CSt.close]) ?_
    h'.protos.length_eq (forall₂_get h'.protos)
  · show c.locals.length = d.locals.length
    rw [h.locals, List.length_map]
  · show c.upvals.length = d.upvals.length
    rw [h.upvals, List.length_map]
  · show (ps.map _).map some = (strs ps).map (find d.locals)
    rw [h.locals, List.map_map, List.map_map]
    refine List.map_congr_left fun x hx => ?_
    have hm := (params_mem ps []).2 x hx
    have := find_str x c.locals
    simp only [Function.comp, this, hp.subset hm, if_true, Compile.idxOf_prefix hp hm]
  · simp [Compile.CSt.close, CSt.close, Function.comp_def]

end Potion.CompileAll
