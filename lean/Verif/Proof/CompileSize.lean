import Verif.Proof.CompileTop
import Mathlib.Data.List.Forall2
/-! The size of compiled code, bounded by the program. -/
namespace Potion.Compile
open Potion Potion.Vm Potion.Spec

/-- Uses of variables and parameters. -/
def uses : Src → Nat
  | .msg _ => 1
  | .assign _ e => uses e + 1
  | .inc .. => 1
  | .seq a b | .chain a b | .bin _ a b | .and a b | .or a b | .ifm a b | .elsifm a b | .whilem a b | .acons a b => uses a + uses b
  | .paren a | .not a | .wavy a | .elsem a | .loopm a | .retv a => uses a
  | .fn ps b => ps.length + uses b
  | .call _ as => uses as + 1
  | _ => 0

/-- Instructions. -/
def cost : Src → Nat
  | .skip | .anil => 0
  | .seq a b | .chain a b | .acons a b => cost a + cost b
  | .value _ | .msg _ | .brk | .cont | .self => 1
  | .paren a => cost a
  | .assign _ e => cost e + 1
  | .inc .. => 5
  | .bin _ a b | .and a b | .or a b | .ifm a b => cost a + cost b + 1
  | .elsifm a b | .whilem a b => cost a + cost b + 2
  | .not a | .wavy a | .elsem a | .loopm a | .retv a => cost a + 1
  | .ret0 => 2
  | .fn _ b => uses b + cost b + 1
  | .call _ as => cost as + 3

/-- The bounds claimed of a function and those in it. -/
def Sm (N K : Nat) (f : Proto) : Prop :=
  ∀ g, Within g f → g.len ≤ N ∧ g.values.length ≤ N ∧ g.protos.length ≤ N ∧ g.upvalsize + g.localsize + g.stack + 3 ≤ K

structure Ext (N K c u w : Nat) (s t : CSt) : Prop where
  len : t.len ≤ s.len + c
  values : t.values.length ≤ s.values.length + c
  protos : t.protos.length ≤ s.protos.length + c
  vars : t.upvals.length + t.locals.length ≤ s.upvals.length + s.locals.length + u
  ups : t.upvals.length ≤ s.upvals.length + u
  outer : List.Forall₂ (fun a b => b.1 = a.1 ∧ b.2.length ≤ a.2.length + u) s.outer t.outer
  stack : t.stack ≤ max s.stack w
  all : (∀ g ∈ s.protos, Sm N K g) → ∀ g ∈ t.protos, Sm N K g
  grow : s.stack ≤ t.stack

variable {N K : Nat}

theorem ups_refl (u : Nat) : ∀ l : List (List Name × List Name), List.Forall₂ (fun a b => b.1 = a.1 ∧ b.2.length ≤ a.2.length + u) l l
  | [] => .nil
  | _ :: r => .cons ⟨rfl, by omega⟩ (ups_refl u r)

theorem ups_trans {u v : Nat} : ∀ {a b c : List (List Name × List Name)},
    List.Forall₂ (fun a b => b.1 = a.1 ∧ b.2.length ≤ a.2.length + u) a b → List.Forall₂ (fun a b => b.1 = a.1 ∧ b.2.length ≤ a.2.length + v) b c →
    List.Forall₂ (fun a b => b.1 = a.1 ∧ b.2.length ≤ a.2.length + (u + v)) a c
  | _, _, _, .nil, .nil => .nil
  | _, _, _, .cons h r, .cons h' r' => .cons ⟨h'.1.trans h.1, by omega⟩ (ups_trans r r')

theorem Ext.refl (s : CSt) : Ext N K 0 0 0 s s :=
  ⟨by omega, by omega, by omega, by omega, by omega, ups_refl _ _, by omega, fun h => h, Nat.le_refl _⟩

theorem Ext.mono {c u w c' u' w' s t} (h : Ext N K c u w s t) (hc : c ≤ c') (hu : u ≤ u') (hw : w ≤ w') : Ext N K c' u' w' s t := by
  obtain ⟨h1, h2, h3, h4, h5, h6, h7, h8, h9⟩ := h
  exact ⟨by omega, by omega, by omega, by omega, by omega, h6.imp fun _ _ h => ⟨h.1, by omega⟩, by omega, h8, h9⟩

theorem Ext.trans {c u w c' u' w' s t r} (h : Ext N K c u w s t) (h' : Ext N K c' u' w' t r) : Ext N K (c + c') (u + u') (max w w') s r := by
  obtain ⟨h1, h2, h3, h4, h5, h6, h7, h8, h9⟩ := h
  obtain ⟨k1, k2, k3, k4, k5, k6, k7, k8, k9⟩ := h'
  exact ⟨by omega, by omega, by omega, by omega, by omega, ups_trans h6 k6, by omega, fun h => k8 (h8 h), by omega⟩

theorem Ext.asm (s : CSt) (op a b) : Ext N K 1 0 0 s (s.asm op a b) :=
  ⟨Nat.le_refl _, Nat.le_succ _, Nat.le_succ _, Nat.le_refl _, Nat.le_refl _, ups_refl _ _, by simp [CSt.asm], fun h => h, Nat.le_refl _⟩
theorem Ext.patchA (s : CSt) (i d) : Ext N K 0 0 0 s (s.patchA i d) :=
  ⟨Nat.le_refl _, Nat.le_refl _, Nat.le_refl _, Nat.le_refl _, Nat.le_refl _, ups_refl _ _, by simp [CSt.patchA], fun h => h, Nat.le_refl _⟩
theorem Ext.patchB (s : CSt) (i d) : Ext N K 0 0 0 s (s.patchB i d) :=
  ⟨Nat.le_refl _, Nat.le_refl _, Nat.le_refl _, Nat.le_refl _, Nat.le_refl _, ups_refl _ _, by simp [CSt.patchB], fun h => h, Nat.le_refl _⟩
theorem Ext.patchAll (tg : Int) : ∀ (l : List Nat) (s : CSt), Ext N K 0 0 0 s (s.patchAll tg l)
  | [], s => .refl s
  | i :: l, s => (Ext.patchA s i _).trans (Ext.patchAll tg l _)
theorem Ext.loop (s : CSt) (l) : Ext N K 0 0 0 s { s with loop := l } :=
  ⟨Nat.le_refl _, Nat.le_refl _, Nat.le_refl _, Nat.le_refl _, Nat.le_refl _, ups_refl _ _, by simp, fun h => h, Nat.le_refl _⟩
theorem Ext.regs (s : CSt) (r : Nat) : Ext N K 0 0 (r + 1) s (s.regs r) := by
  unfold CSt.regs
  split
  · exact ⟨Nat.le_refl _, Nat.le_refl _, Nat.le_refl _, Nat.le_refl _, Nat.le_refl _, ups_refl _ _, by simp only []; omega, fun h => h, by simp only []; omega⟩
  · exact (Ext.refl s).mono (Nat.le_refl _) (Nat.le_refl _) (by omega)

theorem put_length {α : Type} [BEq α] [LawfulBEq α] (l : List α) (v : α) : (put l v).1.length ≤ l.length + 1 := by
  unfold put; split <;> simp

theorem pushUp_outer (x : Name) : ∀ {l l'}, pushUp x l = some l' → List.Forall₂ (fun a b => b.1 = a.1 ∧ b.2.length ≤ a.2.length + 1) l l'
  | [], _, h => by simp [pushUp] at h
  | (ls, us) :: r, l', h => by
    simp only [pushUp] at h
    split at h
    · cases h; exact ups_refl _ _
    · split at h
      · simp at h
      · rename_i r' hr
        cases h
        exact .cons ⟨rfl, by simp⟩ (pushUp_outer x hr)

theorem Ext.upval (s : CSt) (x : Name) : Ext N K 0 1 0 s (s.upval x).1 := by
  unfold CSt.upval
  split
  · exact (Ext.refl s).mono (Nat.le_refl _) (by omega) (Nat.le_refl _)
  · split
    · exact (Ext.refl s).mono (Nat.le_refl _) (by omega) (Nat.le_refl _)
    · split
      · exact (Ext.refl s).mono (Nat.le_refl _) (by omega) (Nat.le_refl _)
      · rename_i out ho
        exact ⟨Nat.le_refl _, Nat.le_refl _, Nat.le_refl _, by simp; omega, by simp, pushUp_outer x ho, by simp, fun h => h, Nat.le_refl _⟩

/-- An upvalue is new, or nothing changed. -/
theorem upval_none (s : CSt) (x : Name) (h : (s.upval x).2 = none) : (s.upval x).1 = s := by
  unfold CSt.upval at *
  split at h
  · rw [if_pos ‹_›]
  · split at h
    · simp at h
    · split at h
      · rw [if_neg ‹_›, if_neg ‹_›]
      · simp at h

theorem Ext.look {s st : CSt} {x up n} (h : s.look x = some (st, up, n)) : Ext N K 0 1 0 s st := by
  unfold CSt.look at h
  have := Ext.upval (N := N) (K := K) s x
  split at h
  · rename_i e
    cases h; rw [e] at this; exact this
  · rename_i e
    split at h
    · cases h; rw [e] at this; exact this
    · simp at h

theorem Ext.bind (s : CSt) (x : Name) : Ext N K 0 1 0 s (s.bind x).1 := by
  unfold CSt.bind
  have := Ext.upval (N := N) (K := K) s x
  split
  · rename_i e
    rw [e] at this; exact this
  · rename_i st e
    have hs : st = s := by
      have := upval_none s x (by rw [e])
      rw [e] at this; exact this
    subst hs
    have hp := put_length st.locals x
    exact ⟨Nat.le_refl _, Nat.le_refl _, Nat.le_refl _, by simp only []; omega, Nat.le_succ _, ups_refl _ _, by simp, fun h => h, Nat.le_refl _⟩

theorem Ext.captures (reg : Nat) : ∀ (l : List Name) (s : CSt), Ext N K l.length 0 0 s (s.captures reg l)
  | [], s => .refl s
  | x :: l, s => by
    unfold CSt.captures
    split
    · exact ((Ext.asm s _ _ _).trans (Ext.captures reg l _)).mono (by simp; omega) (Nat.le_refl _) (Nat.le_refl _)
    · exact ((Ext.asm s _ _ _).trans (Ext.captures reg l _)).mono (by simp; omega) (Nat.le_refl _) (Nat.le_refl _)

theorem params_length (ps : List Name) : ∀ l : List Name, (ps.foldl (fun l p => (put l p).1) l).length ≤ l.length + ps.length := by
  induction ps with
  | nil => intro l; simp
  | cons p ps ih =>
    intro l
    have h1 := ih (put l p).1
    have h2 := put_length l p
    simp only [List.foldl_cons, List.length_cons]; omega

theorem u8_le (n : Nat) : u8 n ≤ n := Nat.mod_le _ _

/-- A whole function. -/
theorem close_small {g : CSt} {id : Nat} {ps : List Name} {c u w : Nat} {out : List (List Name × List Name)} {next : Nat}
    (h : Ext N K c u w (CSt.open ps out next) g) (hc : c + 1 ≤ N) (hk : ps.length + u + max 1 w + 3 ≤ K) : Sm N K (g.close id ps) := by
  obtain ⟨h1, h2, h3, h4, h5, h6, h7, h8, h9⟩ := h
  have hp := params_length ps []
  simp only [CSt.open, CSt.new, List.length_nil] at h1 h2 h3 h4 h5 h7 hp
  intro f hf
  cases hf with
  | self => exact ⟨by simp only [CSt.close, CSt.asm]; omega, by simp only [CSt.close, CSt.asm]; omega,
      by simp only [CSt.close, CSt.asm]; omega, by simp only [CSt.close, CSt.asm]; omega⟩
  | sub hm hw => exact h8 (by simp [CSt.open, CSt.new]) _ hm f hw

theorem comp_size (t : Src) : ∀ arg count reg st st', comp t arg count reg st = some st' → cost t + 1 ≤ N → uses t + width t + 4 ≤ K →
    Ext N K (cost t) (uses t) (reg + width t + 1) st st' := by
  induction t with
  | skip =>
    intro arg count reg st st' h _ _
    simp only [comp] at h; cases h
    exact (Ext.regs st reg).mono (Nat.le_refl _) (Nat.le_refl _) (by omega)
  | seq a b iha ihb | chain a b iha ihb =>
    intro arg count reg st st' h hc hk
    simp only [comp] at h
    simp only [cost, uses, width] at *
    split at h
    · simp at h
    · rename_i s1 h1
      exact (((Ext.regs st reg).trans (iha _ _ _ _ _ h1 (by omega) (by omega))).trans (ihb _ _ _ _ _ h (by omega) (by omega))).mono (by omega) (by omega) (by omega)
  | paren a iha =>
    intro arg count reg st st' h hc hk
    simp only [comp] at h
    split at h
    · exact iha _ _ _ _ _ h hc hk
    · simp at h
  | value v =>
    intro arg count reg st st' h hc hk
    simp only [comp] at h
    simp only [cost, uses, width] at *
    split at h
    · cases h
      exact ((Ext.regs st reg).trans (Ext.asm _ _ _ _)).mono (by omega) (by omega) (by omega)
    · cases h
      have h1 := put_length (st.regs reg).values v
      have h2 := Ext.regs (N := N) (K := K) st reg
      refine ⟨?_, ?_, ?_, ?_, ?_, ?_, ?_, ?_, h2.grow⟩
      · have := h2.len; simp only [CSt.asm]; omega
      · have := h2.values; simp only [CSt.asm]; omega
      · have := h2.protos; simp only [CSt.asm]; omega
      · have := h2.vars; simp only [CSt.asm]; omega
      · have := h2.ups; simp only [CSt.asm]; omega
      · exact h2.outer
      · have := h2.stack; simp only [CSt.asm]; omega
      · exact h2.all
  | msg x =>
    intro arg count reg st st' h hc hk
    simp only [comp] at h
    simp only [cost, uses, width] at *
    split at h
    · split at h
      · simp at h
      · rename_i s1 up n h1
        cases h
        exact (((Ext.regs st reg).trans (Ext.look h1)).trans (Ext.asm _ _ _ _)).mono (by omega) (by omega) (by omega)
    · simp at h
  | assign x e ih =>
    intro arg count reg st st' h hc hk
    simp only [comp] at h
    simp only [cost, uses, width] at *
    split at h
    · simp at h
    · split at h
      · simp at h
      · rename_i s1 h1
        cases h
        exact (((((Ext.regs st reg).trans (Ext.bind _ x)).trans (ih _ _ _ _ _ h1 (by omega) (by omega))).trans
          (Ext.asm _ _ _ _)).trans (Ext.regs _ reg)).mono (by omega) (by omega) (by omega)
  | inc x n =>
    intro arg count reg st st' h hc hk
    simp only [comp] at h
    simp only [cost, uses, width] at *
    have hb := ((Ext.regs st reg).trans (Ext.bind (N := N) (K := K) _ x)).trans (Ext.asm _ (getOp ((st.regs reg).bind x).2.1) reg ((st.regs reg).bind x).2.2)
    have hu := u8_le (reg + 1)
    split at h <;> cases h
    · exact (((((hb.trans (Ext.asm _ _ _ _)).trans (Ext.asm _ _ _ _)).trans (Ext.asm _ _ _ _)).trans (Ext.asm _ _ _ _)).trans (Ext.regs _ _)).mono
        (by omega) (by omega) (by omega)
    · exact ((((hb.trans (Ext.asm _ _ _ _)).trans (Ext.asm _ _ _ _)).trans (Ext.asm _ _ _ _)).trans (Ext.regs _ _)).mono
        (by omega) (by omega) (by omega)
  | bin op a b iha ihb =>
    intro arg count reg st st' h hc hk
    simp only [comp] at h
    simp only [cost, uses, width] at *
    have hu := u8_le (reg + 1)
    split at h
    · simp at h
    · rename_i s1 h1
      split at h
      · simp at h
      · rename_i s2 h2
        cases h
        exact ((((Ext.regs st reg).trans (iha _ _ _ _ _ h1 (by omega) (by omega))).trans (ihb _ _ _ _ _ h2 (by omega) (by omega))).trans
          (Ext.asm _ _ _ _)).mono (by omega) (by omega) (by omega)
  | not a iha | wavy a iha | retv a iha =>
    intro arg count reg st st' h hc hk
    simp only [comp] at h
    simp only [cost, uses, width] at *
    split at h
    · simp at h
    · rename_i s1 h1
      cases h
      exact (((Ext.regs st reg).trans (iha _ _ _ _ _ h1 (by omega) (by omega))).trans (Ext.asm _ _ _ _)).mono (by omega) (by omega) (by omega)
  | and a b iha ihb | or a b iha ihb =>
    intro arg count reg st st' h hc hk
    simp only [comp] at h
    simp only [cost, uses, width] at *
    split at h
    · simp at h
    · rename_i s1 h1
      split at h
      · simp at h
      · rename_i s2 h2
        cases h
        exact (((((Ext.regs st reg).trans (iha _ _ _ _ _ h1 (by omega) (by omega))).trans (Ext.asm _ _ _ _)).trans
          (ihb _ _ _ _ _ h2 (by omega) (by omega))).trans (Ext.patchB _ _ _)).mono (by omega) (by omega) (by omega)
  | ifm a b iha ihb =>
    intro arg count reg st st' h hc hk
    simp only [comp] at h
    simp only [cost, uses, width] at *
    have hu := u8_le (reg + 1)
    split at h
    · simp at h
    · rename_i s1 h1
      split at h
      · simp at h
      · rename_i s2 h2
        cases h
        exact ((((((Ext.regs st reg).trans (iha _ _ _ _ _ h1 (by omega) (by omega))).trans (Ext.asm _ _ _ _)).trans
          (ihb _ _ _ _ _ h2 (by omega) (by omega))).trans (Ext.patchB _ _ _)).trans (Ext.regs _ _)).mono (by omega) (by omega) (by omega)
  | elsifm a b iha ihb =>
    intro arg count reg st st' h hc hk
    simp only [comp] at h
    simp only [cost, uses, width] at *
    have hu := u8_le (reg + 1)
    split at h
    · simp at h
    · rename_i s1 h1
      split at h
      · simp at h
      · rename_i s2 h2
        cases h
        exact ((((((((Ext.regs st reg).trans (Ext.asm _ _ _ _)).trans (iha _ _ _ _ _ h1 (by omega) (by omega))).trans (Ext.asm _ _ _ _)).trans
          (ihb _ _ _ _ _ h2 (by omega) (by omega))).trans (Ext.patchB _ _ _)).trans (Ext.patchB _ _ _)).trans (Ext.regs _ _)).mono
          (by omega) (by omega) (by omega)
  | elsem b ihb =>
    intro arg count reg st st' h hc hk
    simp only [comp] at h
    simp only [cost, uses, width] at *
    have hu := u8_le (reg + 1)
    split at h
    · simp at h
    · rename_i s1 h1
      cases h
      exact (((((Ext.regs st reg).trans (Ext.asm _ _ _ _)).trans (ihb _ _ _ _ _ h1 (by omega) (by omega))).trans (Ext.patchB _ _ _)).trans
        (Ext.regs _ _)).mono (by omega) (by omega) (by omega)
  | whilem a b iha ihb =>
    intro arg count reg st st' h hc hk
    simp only [comp] at h
    simp only [cost, uses, width] at *
    have hu := u8_le (reg + 1)
    split at h
    · simp at h
    · rename_i s1 h1
      split at h
      · simp at h
      · rename_i s2 h2
        cases h
        exact ((((((((((Ext.regs st reg).trans (iha _ _ _ _ _ h1 (by omega) (by omega))).trans (Ext.asm _ _ _ _)).trans (Ext.loop _ _)).trans
          (ihb _ _ _ _ _ h2 (by omega) (by omega))).trans (Ext.asm _ _ _ _)).trans (Ext.patchB _ _ _)).trans (Ext.patchAll _ _ _)).trans
          (Ext.patchAll _ _ _)).trans ((Ext.loop _ _).trans (Ext.regs _ _))).mono (by omega) (by omega) (by omega)
  | loopm b ihb =>
    intro arg count reg st st' h hc hk
    simp only [comp] at h
    simp only [cost, uses, width] at *
    have hu := u8_le (reg + 1)
    split at h
    · simp at h
    · rename_i s1 h1
      cases h
      exact (((((((Ext.regs st reg).trans (Ext.loop _ _)).trans (ihb _ _ _ _ _ h1 (by omega) (by omega))).trans (Ext.asm _ _ _ _)).trans
        (Ext.patchAll _ _ _)).trans (Ext.patchAll _ _ _)).trans ((Ext.loop _ _).trans (Ext.regs _ _))).mono (by omega) (by omega) (by omega)
  | ret0 =>
    intro arg count reg st st' h hc hk
    simp only [comp] at h
    simp only [cost, uses, width] at *
    cases h
    exact (((Ext.regs st reg).trans (Ext.asm _ _ _ _)).trans (Ext.asm _ _ _ _)).mono (by omega) (by omega) (by omega)
  | brk | cont =>
    intro arg count reg st st' h hc hk
    simp only [comp] at h
    simp only [cost, uses, width] at *
    split at h
    · simp at h
    · split at h
      · cases h
        exact (((Ext.regs st reg).trans (Ext.asm _ _ _ _)).trans (Ext.loop _ _)).mono (by omega) (by omega) (by omega)
      · simp at h
  | self =>
    intro arg count reg st st' h hc hk
    simp only [comp] at h
    simp only [cost, uses, width] at *
    cases h
    exact ((Ext.regs st reg).trans (Ext.asm _ _ _ _)).mono (by omega) (by omega) (by omega)
  | fn ps b ihb =>
    intro arg count reg st st' h hc hk
    simp only [comp] at h
    simp only [cost, uses, width] at *
    split at h
    · simp at h
    · rename_i g h1
      have hg := ihb _ _ _ _ _ h1 (by omega) (by omega)
      split at h
      · simp at h
      · rename_i ls us out ho
        cases h
        have ho' := hg.outer
        rw [ho] at ho'
        simp only [CSt.open] at ho'
        cases ho' with
        | cons h2 h3 =>
        have hr := Ext.regs (N := N) (K := K) st reg
        have hups : g.upvals.length ≤ uses b := by have := hg.ups; simpa [CSt.open, CSt.new] using this
        have hcl : Sm N K (g.close (st.regs reg).next ps) := close_small hg (by omega) (by omega)
        have hlen : us.length ≤ (st.regs reg).upvals.length + uses b := h2.2
        have hmid : Ext N K 0 (uses b) 0 (st.regs reg) { st.regs reg with upvals := us, outer := out, next := g.next } :=
          ⟨Nat.le_refl _, Nat.le_refl _, Nat.le_refl _, by simp only []; omega, hlen, h3, by simp, fun h => h, Nat.le_refl _⟩
        have hp : Ext N K 1 0 0 { st.regs reg with upvals := us, outer := out, next := g.next }
            (CSt.asm { st.regs reg with upvals := us, outer := out, protos := (st.regs reg).protos ++ [g.close (st.regs reg).next ps], next := g.next }
              .proto reg (((st.regs reg).protos ++ [g.close (st.regs reg).next ps]).length - 1 : Nat)) :=
          ⟨Nat.le_refl _, Nat.le_succ _, by simp [CSt.asm], Nat.le_refl _, Nat.le_refl _, ups_refl _ _, by simp [CSt.asm], fun h m hm => by
            simp only [CSt.asm, List.mem_append, List.mem_singleton] at hm
            rcases hm with hm | rfl
            · exact h m hm
            · exact hcl, Nat.le_refl _⟩
        exact (((hr.trans hmid).trans hp).trans (Ext.captures reg g.upvals _)).mono (by omega) (by omega) (by omega)
  | call x as ih =>
    intro arg count reg st st' h hc hk
    simp only [comp] at h
    simp only [cost, uses, width] at *
    have ha := argc_le as
    have hu := u8_le (reg + 1 + argc as)
    have hu2 := u8_le (reg + 2)
    split at h
    · split at h
      · simp at h
      · rename_i s1 up n h1
        split at h
        · simp at h
        · rename_i s2 h2
          cases h
          exact (((((((Ext.regs st reg).trans (Ext.look h1)).trans (Ext.asm _ _ _ _)).trans (Ext.asm _ _ _ _)).trans
            (ih _ _ _ _ _ h2 (by omega) (by omega))).trans (Ext.asm _ _ _ _)).trans (Ext.regs _ _)).mono (by omega) (by omega) (by omega)
    · simp at h
  | anil =>
    intro arg count reg st st' h hc hk
    simp only [comp] at h; cases h
    exact (Ext.refl st).mono (Nat.le_refl _) (Nat.le_refl _) (by omega)
  | acons a as iha ihb =>
    intro arg count reg st st' h hc hk
    simp only [comp] at h
    simp only [cost, uses, width] at *
    have hu := u8_le (reg + 1)
    split at h
    · simp at h
    · split at h
      · simp at h
      · rename_i s1 h1
        exact ((iha _ _ _ _ _ h1 (by omega) (by omega)).trans (ihb _ _ _ _ _ h (by omega) (by omega))).mono (by omega) (by omega) (by omega)

theorem comp_grow {t arg count reg st st'} (h : comp t arg count reg st = some st') : st.stack ≤ st'.stack :=
  (comp_size (N := cost t + 1) (K := uses t + width t + 4) t arg count reg st st' h (Nat.le_refl _) (Nat.le_refl _)).grow

mutual
theorem uses_toSrc : ∀ p, uses (toSrc p) = vars p
  | .int _ | .bool _ | .nil | .nop | .brk | .cont | .retNil | .var _ | .incr .. => by simp [toSrc, wrap, uses, vars]
  | .assign _ e => by simp [toSrc, uses, vars, uses_toSrc e]
  | .arith _ a b | .rel _ a b | .eq _ a b | .and a b | .or a b | .seq a b | .while a b => by
    simp [toSrc, wrap, uses, vars, uses_toSrc a, uses_toSrc b]
  | .not a | .bitnot a | .group a | .loop a | .ret a => by simp [toSrc, wrap, uses, vars, uses_toSrc a]
  | .ifs c a r => by simp [toSrc, uses, vars, uses_toSrc c, uses_toSrc a, uses_toTail r]
  | .fn ps b => by simp [toSrc, wrap, uses, vars, uses_toSrc b]
  | .call x as => by simp [toSrc, wrap, uses, vars, uses_toArgs as]
theorem uses_toTail : ∀ r, uses (toTail r) = varsTail r
  | .none => by simp [toTail, uses, varsTail]
  | .elsif c a r => by simp [toTail, uses, varsTail, uses_toSrc c, uses_toSrc a, uses_toTail r]
  | .els a => by simp [toTail, wrap, uses, varsTail, uses_toSrc a]
theorem uses_toArgs : ∀ r, uses (toArgs r) = varsArgs r
  | .nil => by simp [toArgs, uses, varsArgs]
  | .cons a r => by simp [toArgs, uses, varsArgs, uses_toSrc a, uses_toArgs r]
end

mutual
theorem cost_toSrc : ∀ p, cost (toSrc p) = size p
  | .int _ | .bool _ | .nil | .nop | .brk | .cont | .retNil | .var _ | .incr .. => by simp [toSrc, wrap, cost, size]
  | .assign _ e => by simp [toSrc, cost, size, cost_toSrc e]
  | .arith _ a b | .rel _ a b | .eq _ a b | .and a b | .or a b | .seq a b | .while a b => by
    simp [toSrc, wrap, cost, size, cost_toSrc a, cost_toSrc b]
  | .not a | .bitnot a | .group a | .loop a | .ret a => by simp [toSrc, wrap, cost, size, cost_toSrc a]
  | .ifs c a r => by simp [toSrc, cost, size, cost_toSrc c, cost_toSrc a, cost_toTail r]
  | .fn ps b => by simp [toSrc, wrap, cost, size, cost_toSrc b, uses_toSrc b]
  | .call x as => by simp [toSrc, wrap, cost, size, cost_toArgs as]
theorem cost_toTail : ∀ r, cost (toTail r) = sizeTail r
  | .none => by simp [toTail, cost, sizeTail]
  | .elsif c a r => by simp [toTail, cost, sizeTail, cost_toSrc c, cost_toSrc a, cost_toTail r]
  | .els a => by simp [toTail, wrap, cost, sizeTail, cost_toSrc a]
theorem cost_toArgs : ∀ r, cost (toArgs r) = sizeArgs r
  | .nil => by simp [toArgs, cost, sizeArgs]
  | .cons a r => by simp [toArgs, cost, sizeArgs, cost_toSrc a, cost_toArgs r]
end

/-- Small programs compile to code that fits. -/
theorem fits_roomy {p : Prog} {f : Proto} {d : Nat} (h : compile (toSrc p) = some f) (hf : fits p d) : Roomy f d := by
  obtain ⟨h1, h0, h2⟩ := hf
  unfold compile compileFn at h
  split at h
  · simp at h
  · rename_i st hst
    cases h
    have hK : ∀ g, Within g (st.close 0 []) → _ := close_small (N := 2048) (K := vars p + depth p + 4)
      (comp_size (toSrc p) _ _ _ _ _ hst (by rw [cost_toSrc]; omega) (Nat.le_of_eq (by rw [uses_toSrc, width_toSrc]))) (by rw [cost_toSrc]; omega)
      (by rw [uses_toSrc, width_toSrc]; simp; omega)
    refine ⟨vars p + depth p + 4, h2, fun g hg => ?_⟩
    obtain ⟨k1, k2, k3, k4⟩ := hK g hg
    exact ⟨k1, k2, k3, by omega, by omega, k4⟩

end Potion.Compile
