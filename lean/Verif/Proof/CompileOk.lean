import Verif.Proof.CompileTop
/-!
Well-scoped programs compile, and functions in them have no locals but their parameters.
-/
namespace Potion.Compile
open Potion Potion.Vm Potion.Spec

def isWord (x : Ident) : Bool := decide (x ∈ keywords)

/-- Jumps collected for the current loop. -/
def jl (st : CSt) : Nat := match st.loop with
  | none => 0
  | some (bs, cs) => max bs.length cs.length

/-- Where the function being compiled stands. -/
def Stands (out : Outside) (st : CSt) : Prop := match out with
  | none => st.outer = [] ∧ st.upvals = []
  | some O => ∀ x ∈ O, ∃ p ∈ st.outer, x ∈ p.1

/-- Functions without locals but their parameters. -/
def AllFlat (l : List Proto) : Prop := ∀ g ∈ l, ∀ h, Within h g → Flat h

/-- The upvalues of the outermost function. -/
def lastUp : List (List Name × List Name) → List Name
  | [] => []
  | [(_, us)] => us
  | _ :: p :: r => lastUp (p :: r)

/-- What is needed to compile something with `j` jumps. -/
structure Pre (out : Outside) (inl : Bool) (L : List Ident) (j : Nat) (st : CSt) : Prop where
  locals : st.locals = L
  out : Stands out st
  loop : st.loop.isSome = inl
  jl : jl st + j ≤ MAX_JUMPS
  flat : AllFlat st.protos

/-- The state after compiling something. -/
structure Okay (st : CSt) (L' : List Ident) (j : Nat) (st' : CSt) : Prop where
  locals : st'.locals = L'
  loop : st'.loop.isSome = st.loop.isSome
  jl : jl st' ≤ jl st + j
  outer : st'.outer.map (·.1) = st.outer.map (·.1)
  last : lastUp st'.chain = lastUp st.chain
  flat : AllFlat st.protos → AllFlat st'.protos

theorem Okay.ups {st st' : CSt} {L' j} (o : Okay st L' j st') (h : st.outer = []) : st'.upvals = st.upvals := by
  have h' : st'.outer = [] := by
    have := o.outer
    rw [h] at this; simpa using this
  have := o.last
  unfold CSt.chain at this
  rw [h, h'] at this
  exact this

/-- Nothing but code and registers changes. -/
structure Keep (st st' : CSt) : Prop where
  locals : st'.locals = st.locals
  loop : st'.loop = st.loop
  outer : st'.outer = st.outer
  ups : st'.upvals = st.upvals
  protos : st'.protos = st.protos

theorem jl_congr {st st' : CSt} (h : st'.loop = st.loop) : jl st' = jl st := by unfold jl; rw [h]
theorem put_known (L : List Ident) (x : Ident) : (put L x).1 = known L x := by unfold put known; split <;> rfl

theorem Keep.refl (st : CSt) : Keep st st := ⟨rfl, rfl, rfl, rfl, rfl⟩
theorem Keep.trans {a b c : CSt} (h : Keep a b) (h' : Keep b c) : Keep a c :=
  ⟨h'.locals.trans h.locals, h'.loop.trans h.loop, h'.outer.trans h.outer, h'.ups.trans h.ups, h'.protos.trans h.protos⟩
theorem Keep.regs (st : CSt) (r : Nat) : Keep st (st.regs r) := by unfold CSt.regs; split <;> exact ⟨rfl, rfl, rfl, rfl, rfl⟩
theorem Keep.asm (st : CSt) (o a b) : Keep st (st.asm o a b) := ⟨rfl, rfl, rfl, rfl, rfl⟩
theorem Keep.patchB (st : CSt) (i d) : Keep st (st.patchB i d) := ⟨rfl, rfl, rfl, rfl, rfl⟩
theorem Keep.patchAll (t : Int) : ∀ (l : List Nat) (st : CSt), Keep st (st.patchAll t l)
  | [], _ => Keep.refl _
  | i :: is, st => (show Keep st (st.patchA i (t - i - 1)) from ⟨rfl, rfl, rfl, rfl, rfl⟩).trans (Keep.patchAll t is (st.patchA i (t - i - 1)))
theorem Keep.captures (reg : Nat) : ∀ (l : List Name) (st : CSt), Keep st (st.captures reg l)
  | [], _ => Keep.refl _
  | x :: xs, st => by
    unfold CSt.captures
    split
    · exact (Keep.asm _ _ _ _).trans (Keep.captures reg xs _)
    · exact (Keep.asm _ _ _ _).trans (Keep.captures reg xs _)

theorem Keep.okay {st st' : CSt} (k : Keep st st') {L j} (h : st.locals = L) : Okay st L j st' :=
  ⟨k.locals.trans h, by rw [k.loop], by rw [jl_congr k.loop]; omega, by rw [k.outer], by unfold CSt.chain; rw [k.outer, k.ups, k.locals], by rw [k.protos]; exact id⟩

theorem Keep.pre {st st' : CSt} (k : Keep st st') {out inl L j} (h : Pre out inl L j st) : Pre out inl L j st' := by
  refine ⟨k.locals.trans h.locals, ?_, by rw [k.loop]; exact h.loop, by rw [jl_congr k.loop]; exact h.jl, by rw [k.protos]; exact h.flat⟩
  have := h.out
  unfold Stands at this ⊢
  rw [k.outer, k.ups]; exact this

theorem Okay.trans {st s1 st' : CSt} {L1 L' j k} (o : Okay st L1 j s1) (o' : Okay s1 L' k st') : Okay st L' (j + k) st' :=
  ⟨o'.locals, by rw [o'.loop, o.loop], by have := o.jl; have := o'.jl; omega, o'.outer.trans o.outer, o'.last.trans o.last, fun h => o'.flat (o.flat h)⟩

/-- Before and after. -/
theorem Okay.mid {st s0 s1 st' : CSt} {L' j} (k : Keep st s0) (o : Okay s0 L' j s1) (k' : Keep s1 st') : Okay st L' j st' := by
  have := ((k.okay (j := 0) rfl).trans o).trans (k'.okay (j := 0) o.locals)
  rwa [Nat.zero_add, Nat.add_zero] at this
theorem Okay.post {s0 s1 st' : CSt} {L' j} (o : Okay s0 L' j s1) (k' : Keep s1 st') : Okay s0 L' j st' := Okay.mid (Keep.refl _) o k'
theorem Okay.from {st s0 s1 : CSt} {L' j} (o : Okay s0 L' j s1) (k : Keep st s0) : Okay st L' j s1 := Okay.mid k o (Keep.refl _)

theorem Okay.stands {st s1 : CSt} {L1 j out} (h : Stands out st) (o : Okay st L1 j s1) : Stands out s1 := by
  have e := o.outer
  cases out with
  | none =>
    obtain ⟨h1, h2⟩ := h
    refine ⟨?_, by rw [o.ups h1, h2]⟩
    rw [h1] at e; simpa using e
  | some O =>
    intro x hx
    obtain ⟨p, p1, p2⟩ := h x hx
    have : p.1 ∈ s1.outer.map (·.1) := by rw [e]; exact List.mem_map_of_mem p1
    obtain ⟨q, q1, q2⟩ := List.mem_map.1 this
    exact ⟨q, q1, by rw [q2]; exact p2⟩

theorem Okay.next {st s1 : CSt} {out inl L L1 j k} (h : Pre out inl L (j + k) st) (o : Okay st L1 j s1) : Pre out inl L1 k s1 :=
  ⟨o.locals, Okay.stands h.out o, by rw [o.loop, h.loop], by have := h.jl; have := o.jl; omega, o.flat h.flat⟩

theorem Pre.less {st : CSt} {out inl L j k} (h : Pre out inl L (j + k) st) : Pre out inl L j st :=
  ⟨h.locals, h.out, h.loop, by have := h.jl; omega, h.flat⟩

/-- Compiling `t` succeeds from every state with locals `L` and few enough jumps. -/
def Comps (t : Src) (arg : Bool) (out : Outside) (inl : Bool) (L L' : List Ident) (j : Nat) : Prop :=
  ∀ reg st, Pre out inl L j st → ∃ st', comp t arg 0 reg st = some st' ∧ Okay st L' j st'

/-- The same for what follows in a chain. -/
def CompsT (t : Src) (out : Outside) (inl : Bool) (L L' : List Ident) (j : Nat) : Prop :=
  ∀ count reg st, Pre out inl L j st → ∃ st', comp t false count reg st = some st' ∧ Okay st L' j st'

theorem pushUp_some (x : Name) : ∀ (o : List (List Name × List Name)), (∃ p ∈ o, x ∈ p.1) →
    ∃ o', pushUp x o = some o' ∧ o'.map (·.1) = o.map (·.1) ∧ ∀ p p', lastUp (p :: o') = lastUp (p' :: o)
  | [], h => by simp at h
  | (ls, us) :: r, h => by
    simp only [pushUp]
    split
    · exact ⟨_, rfl, rfl, fun _ _ => rfl⟩
    · rename_i hx
      obtain ⟨p, p1, p2⟩ := h
      rcases List.mem_cons.1 p1 with rfl | p1
      · exact absurd p2 hx
      · obtain ⟨o', h1, h2, h3⟩ := pushUp_some x r ⟨p, p1, p2⟩
        rw [h1]
        exact ⟨_, rfl, by simp [h2], fun _ _ => h3 _ _⟩

theorem look_ok {out inl L j st x} (h : Pre out inl L j st) (hx : sees out L x = true) :
    ∃ st' up num, st.look x = some (st', up, num) ∧ Okay st L 0 st' := by
  unfold CSt.look CSt.upval
  by_cases hl : x ∈ st.locals
  · rw [if_pos hl]
    simp only [if_pos hl]
    exact ⟨_, _, _, rfl, (Keep.refl _).okay h.locals⟩
  · rw [if_neg hl]
    have hO : x ∈ out.getD [] := by
      simp only [sees, Bool.or_eq_true, decide_eq_true_eq] at hx
      rcases hx with hx | hx
      · rw [h.locals] at hl; exact absurd hx hl
      · exact hx
    cases out with
    | none => simp at hO
    | some O =>
      have hp := h.out x hO
      by_cases hu : x ∈ st.upvals
      · rw [if_pos hu]; exact ⟨_, _, _, rfl, (Keep.refl _).okay h.locals⟩
      · rw [if_neg hu]
        obtain ⟨o', h1, h2, h3⟩ := pushUp_some x _ hp
        rw [h1]
        exact ⟨_, _, _, rfl, h.locals, rfl, by simp [jl], h2, h3 _ _, id⟩

theorem bind_ok {out inl L L' j st x} (h : Pre out inl L j st) (hx : binds out L x = some L') : Okay st L' 0 (st.bind x).1 := by
  unfold CSt.bind CSt.upval
  by_cases hl : x ∈ st.locals
  · rw [if_pos hl]
    refine ⟨?_, rfl, by simp [jl], rfl, by simp only [CSt.chain, put_of_mem hl], id⟩
    simp only [put_of_mem hl]
    rw [h.locals] at hl ⊢
    cases out with
    | none => simp only [binds, known, if_pos hl, Option.some.injEq] at hx; exact hx
    | some O => simp only [binds, hl, true_or, if_true, Option.some.injEq] at hx; exact hx
  · rw [if_neg hl]
    cases out with
    | none =>
      obtain ⟨o1, o2⟩ := h.out
      rw [o1, o2]
      simp only [List.not_mem_nil, if_false, pushUp]
      refine ⟨?_, rfl, by simp [jl], by simp [o1], by simp [CSt.chain, o1, o2, lastUp], id⟩
      simp only [put_known]
      simp only [binds, Option.some.injEq] at hx
      rw [h.locals]; exact hx
    | some O =>
      have hm : x ∈ O ∧ L' = L := by
        simp only [binds] at hx
        split at hx
        · rename_i ho
          rw [h.locals] at hl
          exact ⟨ho.resolve_left hl, by simpa using hx.symm⟩
        · simp at hx
      obtain ⟨hO, rfl⟩ := hm
      have hp := h.out x hO
      by_cases hu : x ∈ st.upvals
      · rw [if_pos hu]; exact (Keep.refl _).okay h.locals
      · rw [if_neg hu]
        obtain ⟨o', h1, h2, h3⟩ := pushUp_some x _ hp
        rw [h1]
        exact ⟨h.locals, rfl, by simp [jl], h2, h3 _ _, id⟩

section
variable {out : Outside} {inl : Bool} {L L1 L' : List Ident} {j k : Nat}

theorem comps_wrap {t : Src} {arg} (h : Comps t false out inl L L' j) : Comps (wrap t) arg out inl L L' j := by
  intro reg st p
  obtain ⟨s1, h1, o1⟩ := h reg (st.regs reg) ((Keep.regs _ _).pre p)
  refine ⟨s1.regs reg, ?_, o1.mid (Keep.regs _ _) (Keep.regs _ _)⟩
  simp only [Compile.wrap, comp, h1]

theorem comps_value {v : PN} {arg} : Comps (.value v) arg out inl L L 0 := by
  intro reg st p
  simp only [comp]
  split
  · exact ⟨_, rfl, ((Keep.regs _ _).trans (Keep.asm _ _ _ _)).okay p.locals⟩
  · have : Keep (st.regs reg) { st.regs reg with values := (put (st.regs reg).values v).1 } := ⟨rfl, rfl, rfl, rfl, rfl⟩
    exact ⟨_, rfl, (((Keep.regs _ _).trans this).trans (Keep.asm _ _ _ _)).okay p.locals⟩

theorem comps_bin {op} {a b : Src} {arg} (ha : Comps a true out inl L L1 j) (hb : Comps b true out inl L1 L' k) :
    Comps (.bin op a b) arg out inl L L' (j + k) := by
  intro reg st p
  have p := (Keep.regs _ reg).pre p
  obtain ⟨s1, h1, o1⟩ := ha reg (st.regs reg) p.less
  obtain ⟨s2, h2, o2⟩ := hb (u8 (reg+1)) s1 (o1.next p)
  simp only [comp, h1, h2]
  exact ⟨_, rfl, (o1.trans o2).mid (Keep.regs _ _) (Keep.asm _ _ _ _)⟩

theorem comps_seq {a b : Src} {arg} (ha : Comps a false out inl L L1 j) (hb : Comps b false out inl L1 L' k) :
    Comps (.seq a b) arg out inl L L' (j + k) := by
  intro reg st p
  have p := (Keep.regs _ reg).pre p
  obtain ⟨s1, h1, o1⟩ := ha reg (st.regs reg) p.less
  obtain ⟨s2, h2, o2⟩ := hb reg s1 (o1.next p)
  simp only [comp, h1, h2]
  exact ⟨_, rfl, (o1.trans o2).from (Keep.regs _ _)⟩

theorem comps_and {a b : Src} {arg} (ha : Comps a true out inl L L1 j) (hb : Comps b true out inl L1 L' k) :
    Comps (.and a b) arg out inl L L' (j + k) := by
  intro reg st p
  have p := (Keep.regs _ reg).pre p
  obtain ⟨s1, h1, o1⟩ := ha reg (st.regs reg) p.less
  obtain ⟨s2, h2, o2⟩ := hb reg (s1.asm .notjmp reg 0) ((Keep.asm _ _ _ _).pre (o1.next p))
  simp only [comp, h1, h2]
  exact ⟨_, rfl, (o1.trans (o2.from (Keep.asm _ _ _ _))).mid (Keep.regs _ _) (Keep.patchB _ _ _)⟩

theorem comps_or {a b : Src} {arg} (ha : Comps a true out inl L L1 j) (hb : Comps b true out inl L1 L' k) :
    Comps (.or a b) arg out inl L L' (j + k) := by
  intro reg st p
  have p := (Keep.regs _ reg).pre p
  obtain ⟨s1, h1, o1⟩ := ha reg (st.regs reg) p.less
  obtain ⟨s2, h2, o2⟩ := hb reg (s1.asm .testjmp reg 0) ((Keep.asm _ _ _ _).pre (o1.next p))
  simp only [comp, h1, h2]
  exact ⟨_, rfl, (o1.trans (o2.from (Keep.asm _ _ _ _))).mid (Keep.regs _ _) (Keep.patchB _ _ _)⟩

theorem comps_ifm {a b : Src} (ha : Comps a false out inl L L1 j) (hb : Comps b false out inl L1 L' k) :
    CompsT (.ifm a b) out inl L L' (j + k) := by
  intro count reg st p
  have p := (Keep.regs _ reg).pre p
  obtain ⟨s1, h1, o1⟩ := ha (u8 (reg+1)) (st.regs reg) p.less
  obtain ⟨s2, h2, o2⟩ := hb reg (s1.asm .notjmp (u8 (reg+1)) 0) ((Keep.asm _ _ _ _).pre (o1.next p))
  simp only [comp, h1, h2]
  exact ⟨_, rfl, (o1.trans (o2.from (Keep.asm _ _ _ _))).mid (Keep.regs _ _) ((Keep.patchB _ _ _).trans (Keep.regs _ _))⟩

theorem comps_elsifm {a b : Src} (ha : Comps a false out inl L L1 j) (hb : Comps b false out inl L1 L' k) :
    CompsT (.elsifm a b) out inl L L' (j + k) := by
  intro count reg st p
  have k0 := (Keep.regs st reg).trans (Keep.asm _ .testjmp (u8 (reg+1)) 0)
  have p := k0.pre p
  obtain ⟨s1, h1, o1⟩ := ha (u8 (reg+1)) _ p.less
  obtain ⟨s2, h2, o2⟩ := hb reg (s1.asm .notjmp (u8 (reg+1)) 0) ((Keep.asm _ _ _ _).pre (o1.next p))
  simp only [comp, h1, h2]
  exact ⟨_, rfl, (o1.trans (o2.from (Keep.asm _ _ _ _))).mid k0 (((Keep.patchB _ _ _).trans (Keep.patchB _ _ _)).trans (Keep.regs _ _))⟩

theorem comps_elsem {b : Src} (hb : Comps b false out inl L L' k) : CompsT (.elsem b) out inl L L' k := by
  intro count reg st p
  have k0 := (Keep.regs st reg).trans (Keep.asm _ .testjmp (u8 (reg+1)) 0)
  obtain ⟨s2, h2, o2⟩ := hb reg _ (k0.pre p)
  simp only [comp, h2]
  exact ⟨_, rfl, o2.mid k0 ((Keep.patchB _ _ _).trans (Keep.regs _ _))⟩

theorem comps_chain {a b : Src} (ha : CompsT a out inl L L1 j) (hb : CompsT b out inl L1 L' k) : CompsT (.chain a b) out inl L L' (j + k) := by
  intro count reg st p
  have p := (Keep.regs _ reg).pre p
  obtain ⟨s1, h1, o1⟩ := ha count reg (st.regs reg) p.less
  obtain ⟨s2, h2, o2⟩ := hb (count+1) reg s1 (o1.next p)
  simp only [comp, h1, h2]
  exact ⟨_, rfl, (o1.trans o2).from (Keep.regs _ _)⟩

theorem comps_skip : CompsT .skip out inl L L 0 := by
  intro count reg st p
  simp only [comp]
  exact ⟨_, rfl, (Keep.regs _ _).okay p.locals⟩

/-- The state at the end of a loop. -/
theorem Okay.loop_end {st s0 s1 s2 : CSt} (hL : s0.locals = st.locals) (ho : s0.outer = st.outer) (hu : s0.upvals = st.upvals) (hp : s0.protos = st.protos) {L' j k}
    (o : Okay s0 L' j s1) (hl : s2.locals = s1.locals) (ho' : s2.outer = s1.outer) (hu' : s2.upvals = s1.upvals) (hp' : s2.protos = s1.protos)
    (hloop : s2.loop = st.loop) : Okay st L' k s2 := by
  refine ⟨hl.trans o.locals, by rw [hloop], by rw [jl_congr hloop]; omega, by rw [ho', ← ho]; exact o.outer, ?_, fun h => ?_⟩
  · have := o.last
    unfold CSt.chain at this ⊢
    rw [ho', hu', hl, ← ho, ← hu, ← hL]; exact this
  · rw [hp']; exact o.flat (by rw [hp]; exact h)

theorem Pre.in_loop {st : CSt} (p : Pre out inl L j st) (hk : k ≤ MAX_JUMPS) : Pre out true L k { st with loop := some ([], []) } :=
  ⟨p.locals, p.out, rfl, by simpa [Compile.jl] using hk, p.flat⟩

theorem comps_loopm {b : Src} {arg} (hb : Comps b false out true L L' k) (hk : k ≤ MAX_JUMPS) : Comps (.loopm b) arg out inl L L' k := by
  intro reg st p
  have p := (Keep.regs _ reg).pre p
  obtain ⟨s2, h2, o2⟩ := hb reg { st.regs reg with loop := some ([], []) } (p.in_loop hk)
  simp only [comp, h2]
  refine ⟨_, rfl, ?_⟩
  generalize hs3 : (s2.asm Opc.jmp (((st.regs reg).len : Int) - s2.len - 1) 0) = s3
  have e2 : Keep s2 ((s3.patchAll s3.len (s3.loop.getD ([], [])).1).patchAll (st.regs reg).len (s3.loop.getD ([], [])).2) := by
    rw [← hs3]
    exact ((Keep.asm _ _ _ _).trans (Keep.patchAll _ _ _)).trans (Keep.patchAll _ _ _)
  generalize hs4 : ((s3.patchAll s3.len (s3.loop.getD ([], [])).1).patchAll (st.regs reg).len (s3.loop.getD ([], [])).2) = s4 at *
  have kr := Keep.regs st reg
  have : Okay (st.regs reg) L' k { s4 with loop := (st.regs reg).loop } :=
    Okay.loop_end (st := st.regs reg) (s2 := { s4 with loop := (st.regs reg).loop }) (s0 := { st.regs reg with loop := some ([], []) }) rfl rfl rfl rfl o2 e2.locals e2.outer e2.ups e2.protos rfl
  exact this.mid kr (Keep.regs _ _)

theorem comps_whilem {a b : Src} {arg} (ha : Comps a false out inl L L1 j) (hb : Comps b false out true L1 L' k) (hk : k ≤ MAX_JUMPS) :
    Comps (.whilem a b) arg out inl L L' (j + k) := by
  intro reg st p
  have p := (Keep.regs _ reg).pre p
  obtain ⟨s1, h1, o1⟩ := ha (u8 (reg+1)) (st.regs reg) p.less
  have p1 := (Keep.asm s1 .notjmp (u8 (reg+1)) 0).pre (o1.next p)
  obtain ⟨s2, h2, o2⟩ := hb reg { s1.asm .notjmp (u8 (reg+1)) 0 with loop := some ([], []) } (p1.in_loop hk)
  simp only [comp, h1, h2]
  refine ⟨_, rfl, ?_⟩
  generalize hs3 : (s2.asm Opc.jmp (((st.regs reg).len : Int) - s2.len - 1) 0) = s3
  generalize hs5 : s3.patchB s1.len ((s3.len : Int) - s1.len - 1) = s5
  have e2 : Keep s2 ((s5.patchAll s5.len (s5.loop.getD ([], [])).1).patchAll (st.regs reg).len (s5.loop.getD ([], [])).2) := by
    rw [← hs5, ← hs3]
    exact (((Keep.asm _ _ _ _).trans (Keep.patchB _ _ _)).trans (Keep.patchAll _ _ _)).trans (Keep.patchAll _ _ _)
  generalize hs4 : ((s5.patchAll s5.len (s5.loop.getD ([], [])).1).patchAll (st.regs reg).len (s5.loop.getD ([], [])).2) = s4 at *
  have : Okay s1 L' k { s4 with loop := s1.loop } :=
    Okay.loop_end (st := s1) (s2 := { s4 with loop := s1.loop }) (s0 := { s1.asm .notjmp (u8 (reg+1)) 0 with loop := some ([], []) }) rfl rfl rfl rfl o2 e2.locals e2.outer e2.ups e2.protos rfl
  exact (o1.trans this).mid (Keep.regs _ _) (Keep.regs _ _)

theorem comps_acons {a b : Src} {arg} (hn : isAssign a = false) (ha : Comps a false out inl L L1 j) (hb : Comps b false out inl L1 L' k) :
    Comps (.acons a b) arg out inl L L' (j + k) := by
  intro reg st p
  obtain ⟨s1, h1, o1⟩ := ha reg st p.less
  obtain ⟨s2, h2, o2⟩ := hb (u8 (reg+1)) s1 (o1.next p)
  simp only [comp, hn, h1, h2]
  exact ⟨_, by simp, o1.trans o2⟩

theorem comps_call {x : Name} {as : Src} {arg} (hx : sees out L x = true) (hw : x ∉ keywords) (ha : Comps as false out inl L L' j) :
    Comps (.call x as) arg out inl L L' j := by
  intro reg st p
  have p := (Keep.regs _ reg).pre p
  obtain ⟨s1, up, num, h1, o1⟩ := look_ok p hx
  have p1 : Pre out inl L j s1 := o1.next (by rwa [Nat.zero_add])
  have k2 := (Keep.asm s1 (getOp up) reg num).trans (Keep.asm _ .self (u8 (reg+1)) 0)
  obtain ⟨s3, h3, o3⟩ := ha (u8 (reg+2)) _ (k2.pre p1)
  simp only [comp]
  rw [if_pos ⟨trivial, hw⟩]
  simp only [h1, h3]
  refine ⟨_, rfl, ?_⟩
  have := (o1.trans (o3.from k2)).mid (Keep.regs st reg) ((Keep.asm s3 .call reg (u8 (reg + 1 + argc as))).trans (Keep.regs _ (u8 (reg + 1 + argc as))))
  rwa [Nat.zero_add] at this

theorem flat_close {st : CSt} {ps : List Name} (id : Nat) (hn : ps.Nodup) (hl : st.locals = ps) : Flat (st.close id ps) := by
  have e := put_all ps [] (by simpa using hn)
  simp only [List.nil_append] at e
  refine ⟨by show st.locals.length = (ps.map _).length; rw [hl]; simp, ?_⟩
  show (ps.map (ps.foldl (fun l p => (put l p).1) []).idxOf).Nodup
  rw [e]
  refine List.pairwise_map.2 (List.Pairwise.imp_of_mem (fun {x y} hx hy hxy h => hxy ?_) hn)
  have e1 := List.getElem_idxOf (List.idxOf_lt_length_of_mem hx)
  have e2 := List.getElem_idxOf (List.idxOf_lt_length_of_mem hy)
  rw [← e1, ← e2]
  simp only [h]

theorem comps_fn {ps : List Name} {b : Src} {arg} (hn : ps.Nodup) (hk : k ≤ MAX_JUMPS)
    (hb : Comps b false (some (L ++ out.getD [])) false ps ps k) : Comps (.fn ps b) arg out inl L L k := by
  intro reg st p
  have p := (Keep.regs _ reg).pre p
  have ph := Keep.regs st reg
  simp only [comp]
  generalize st.regs reg = s0 at *
  have e := put_all ps [] (by simpa using hn)
  simp only [List.nil_append] at e
  have p1 : Pre (some (L ++ out.getD [])) false ps k (CSt.open ps ((s0.locals, s0.upvals) :: s0.outer) (s0.next + 1)) := by
    refine ⟨e, fun x hx => ?_, rfl, by simpa [Compile.jl, CSt.open, CSt.new] using hk, by simp [CSt.open, CSt.new, AllFlat]⟩
    rcases List.mem_append.1 hx with hx | hx
    · exact ⟨(s0.locals, s0.upvals), by simp [CSt.open], by rw [p.locals]; exact hx⟩
    · cases out with
      | none => simp at hx
      | some O =>
        obtain ⟨q, q1, q2⟩ := p.out x hx
        exact ⟨q, by simp [CSt.open, q1], q2⟩
  obtain ⟨g, h1, o1⟩ := hb 0 _ p1
  have ho := o1.outer
  have hla := o1.last
  rw [h1]
  simp only []
  rcases hg : g.outer with _ | ⟨⟨ls, us⟩, o⟩
  · rw [hg] at ho; simp [CSt.open] at ho
  rw [hg] at ho
  simp only [CSt.open, List.map_cons, List.cons.injEq] at ho
  simp only []
  refine ⟨_, rfl, Okay.mid ph (s1 := { s0 with upvals := us, outer := o, protos := s0.protos ++ [g.close s0.next ps], next := g.next })
    ⟨p.locals, rfl, by simp [jl], ho.2, ?_, fun h => ?_⟩ ((Keep.asm _ _ _ _).trans (Keep.captures _ _ _))⟩
  · unfold CSt.chain at hla ⊢
    rw [hg] at hla
    have e1 : lastUp ((g.locals, g.upvals) :: (ls, us) :: o) = lastUp ((s0.locals, s0.upvals) :: s0.outer) := hla
    rw [← e1, ho.1]
    rfl
  · intro f hf f' hw
    rcases List.mem_append.1 hf with hf | hf
    · exact h f hf f' hw
    · obtain rfl := by simpa using hf
      cases hw with
      | self => exact flat_close _ hn o1.locals
      | sub hm hw => exact (o1.flat (by simp [CSt.open, CSt.new, AllFlat])) _ hm _ hw
end

mutual
/-- Functions introduce no variables. -/
theorem inScope_fn {w g : Ident → Bool} {O : List Ident} : ∀ (p : Prog) (arg inl : Bool) (L L' : List Ident), inScope w g (some O) arg inl p L = some L' → L' = L
  | .int _, _, _, L, L', h | .bool _, _, _, L, L', h | .nil, _, _, L, L', h | .nop, _, _, L, L', h | .retNil, _, _, L, L', h => by
    simp only [inScope, Option.some.injEq] at h; exact h.symm
  | .brk, _, _, L, L', h | .cont, _, _, L, L', h | .var _, _, _, L, L', h | .fn _ _, _, _, L, L', h => by
    simp only [inScope] at h
    split at h
    · simpa using h.symm
    · simp at h
  | .incr _ _ _, _, _, L, L', h => by
    simp only [inScope, binds] at h
    split at h
    · simpa using h.symm
    · simp at h
  | .assign x e, _, inl, L, L', h => by
    simp only [inScope, binds] at h
    split at h
    · simp at h
    · split at h
      · exact inScope_fn e _ _ _ _ h
      · simp at h
  | .arith _ a b, _, inl, L, L', h | .rel _ a b, _, inl, L, L', h | .eq _ a b, _, inl, L, L', h | .and a b, _, inl, L, L', h | .or a b, _, inl, L, L', h
  | .seq a b, _, inl, L, L', h | .while a b, _, inl, L, L', h => by
    simp only [inScope, Option.bind_eq_some_iff] at h
    obtain ⟨L1, h1, h2⟩ := h
    rw [inScope_fn b _ _ _ _ h2, inScope_fn a _ _ _ _ h1]
  | .not a, _, inl, L, L', h | .bitnot a, _, inl, L, L', h | .loop a, _, inl, L, L', h | .ret a, _, inl, L, L', h => by
    simp only [inScope] at h
    exact inScope_fn a _ _ _ _ h
  | .group a, _, inl, L, L', h => by
    simp only [inScope] at h
    split at h
    · exact inScope_fn a _ _ _ _ h
    · simp at h
  | .ifs c a r, _, inl, L, L', h => by
    simp only [inScope, Option.bind_eq_some_iff] at h
    obtain ⟨L2, ⟨L1, h1, h2⟩, h3⟩ := h
    rw [inScopeTail_fn r _ _ _ h3, inScope_fn a _ _ _ _ h2, inScope_fn c _ _ _ _ h1]
  | .call x as, _, inl, L, L', h => by
    simp only [inScope] at h
    split at h
    · exact inScopeArgs_fn as _ _ _ h
    · simp at h
theorem inScopeTail_fn {w g : Ident → Bool} {O : List Ident} : ∀ (r : Else) (inl : Bool) (L L' : List Ident), inScopeTail w g (some O) inl r L = some L' → L' = L
  | .none, _, L, L', h => by simp only [inScopeTail, Option.some.injEq] at h; exact h.symm
  | .els a, inl, L, L', h => by simp only [inScopeTail] at h; exact inScope_fn a _ _ _ _ h
  | .elsif c a r, inl, L, L', h => by
    simp only [inScopeTail, Option.bind_eq_some_iff] at h
    obtain ⟨L2, ⟨L1, h1, h2⟩, h3⟩ := h
    rw [inScopeTail_fn r _ _ _ h3, inScope_fn a _ _ _ _ h2, inScope_fn c _ _ _ _ h1]
theorem inScopeArgs_fn {w g : Ident → Bool} {O : List Ident} : ∀ (r : Args) (inl : Bool) (L L' : List Ident), inScopeArgs w g (some O) inl r L = some L' → L' = L
  | .nil, _, L, L', h => by simp only [inScopeArgs, Option.some.injEq] at h; exact h.symm
  | .cons a r, inl, L, L', h => by
    simp only [inScopeArgs] at h
    split at h
    · simp at h
    · simp only [Option.bind_eq_some_iff] at h
      obtain ⟨L1, h1, h2⟩ := h
      rw [inScopeArgs_fn r _ _ _ h2, inScope_fn a _ _ _ _ h1]
end

theorem isAssign_toSrc : ∀ a : Prog, isAssign (toSrc a) = isAssignP a
  | .assign _ _ => by simp [toSrc, isAssign, isAssignP]
  | .int _ | .bool _ | .nil | .var _ | .incr .. | .nop | .brk | .cont | .retNil | .arith .. | .rel .. | .eq .. | .and .. | .or .. | .seq .. | .while ..
  | .not _ | .bitnot _ | .group _ | .loop _ | .ret _ | .ifs .. | .fn .. | .call .. => by simp [toSrc, wrap, isAssign, isAssignP]

mutual
theorem comps_prog : ∀ (p : Prog) (arg : Bool) (out : Outside) (inl : Bool) (L L' : List Ident), inScope isWord isGlobal out arg inl p L = some L' → jumps p ≤ MAX_JUMPS →
    Comps (toSrc p) arg out inl L L' (jumps p)
  | .int i, arg, out, inl, L, L', h, hj => by
    simp only [inScope, Option.some.injEq] at h; subst h
    simp only [toSrc, jumps]; exact comps_wrap comps_value
  | .bool i, arg, out, inl, L, L', h, hj => by
    simp only [inScope, Option.some.injEq] at h; subst h
    simp only [toSrc, jumps]; exact comps_wrap comps_value
  | .nil, arg, out, inl, L, L', h, hj => by
    simp only [inScope, Option.some.injEq] at h; subst h
    simp only [toSrc, jumps]; exact comps_wrap comps_value
  | .nop, arg, out, inl, L, L', h, hj => by
    simp only [inScope, Option.some.injEq] at h; subst h
    simp only [toSrc, jumps]
    intro reg st p
    simp only [comp]
    exact ⟨_, rfl, (Keep.regs _ _).okay p.locals⟩
  | .retNil, arg, out, inl, L, L', h, hj => by
    simp only [inScope, Option.some.injEq] at h; subst h
    simp only [toSrc, jumps]
    refine comps_wrap fun reg st p => ?_
    simp only [comp]
    exact ⟨_, rfl, (((Keep.regs _ _).trans (Keep.asm _ _ _ _)).trans (Keep.asm _ _ _ _)).okay p.locals⟩
  | .brk, arg, out, inl, L, L', h, hj => by
    simp only [inScope] at h
    split at h
    · rename_i hl
      obtain rfl := by simpa using h
      simp only [toSrc, jumps]
      refine comps_wrap fun reg st p => ?_
      simp only [comp]
      have kr := Keep.regs st reg
      have p := kr.pre p
      generalize st.regs reg = s0 at *
      have hi := p.loop
      have hj := p.jl
      rw [hl] at hi
      rcases hs : s0.loop with _ | ⟨bs, cs⟩
      · rw [hs] at hi; simp at hi
      · have : jl s0 = max bs.length cs.length := by unfold jl; rw [hs]
        simp only []
        rw [if_pos (by omega)]
        refine ⟨_, rfl, Okay.from (s0 := s0) ⟨p.locals, by simp [hs], ?_, rfl, rfl, id⟩ kr⟩
        simp only [jl, hs, List.length_append, List.length_cons, List.length_nil]; omega
    · simp at h
  | .cont, arg, out, inl, L, L', h, hj => by
    simp only [inScope] at h
    split at h
    · rename_i hl
      obtain rfl := by simpa using h
      simp only [toSrc, jumps]
      refine comps_wrap fun reg st p => ?_
      simp only [comp]
      have kr := Keep.regs st reg
      have p := kr.pre p
      generalize st.regs reg = s0 at *
      have hi := p.loop
      have hj := p.jl
      rw [hl] at hi
      rcases hs : s0.loop with _ | ⟨bs, cs⟩
      · rw [hs] at hi; simp at hi
      · have : jl s0 = max bs.length cs.length := by unfold jl; rw [hs]
        simp only []
        rw [if_pos (by omega)]
        refine ⟨_, rfl, Okay.from (s0 := s0) ⟨p.locals, by simp [hs], ?_, rfl, rfl, id⟩ kr⟩
        simp only [jl, hs, List.length_append, List.length_cons, List.length_nil]; omega
    · simp at h
  | .var x, arg, out, inl, L, L', h, hj => by
    simp only [inScope] at h
    split at h
    · rename_i hx
      obtain rfl := by simpa using h
      simp only [toSrc, jumps]
      refine comps_wrap fun reg st p => ?_
      simp only [comp]
      rw [if_pos ⟨trivial, by simpa [isWord] using hx.2⟩]
      obtain ⟨s1, up, num, h1, o1⟩ := look_ok ((Keep.regs _ reg).pre p) hx.1
      rw [h1]
      exact ⟨_, rfl, o1.mid (Keep.regs _ _) (Keep.asm _ _ _ _)⟩
    · simp at h
  | .assign x e, arg, out, inl, L, L', h, hj => by
    simp only [inScope] at h
    split at h
    · simp at h
    · rename_i hx
      rw [Option.bind_eq_some_iff] at h
      obtain ⟨L1, h0, h⟩ := h
      simp only [toSrc, jumps] at hj ⊢
      have ih := comps_prog e _ _ _ _ _ h hj
      intro reg st p
      have p := (Keep.regs st reg).pre p
      have o0 := bind_ok p h0
      obtain ⟨s1, h1, o1⟩ := ih reg _ (o0.next (by rw [Nat.zero_add]; exact p))
      simp only [comp]
      rw [if_neg hx]
      simp only [h1]
      have := (o0.trans o1).mid (Keep.regs st reg) ((Keep.asm s1 (setOp ((st.regs reg).bind x).2.1) reg ((st.regs reg).bind x).2.2).trans (Keep.regs _ reg))
      rw [Nat.zero_add] at this
      exact ⟨_, rfl, this⟩
  | .incr pre up x, arg, out, inl, L, L', h, hj => by
    simp only [inScope] at h
    simp only [toSrc, jumps]
    generalize (if pre then pnNum (if up then 1 else -1) ^^^ 1#64 else pnNum (if up then 1 else -1)) = nn
    refine comps_wrap fun reg st p => ?_
    have o0 := bind_ok ((Keep.regs st reg).pre p) h
    simp only [comp]
    refine ⟨_, rfl, o0.mid (Keep.regs st reg) (Keep.trans ?_ (Keep.regs _ _))⟩
    refine Keep.trans (Keep.trans (Keep.trans ?_ (Keep.asm _ _ _ _)) (Keep.asm _ _ _ _)) (Keep.asm _ _ _ _)
    split
    · exact (Keep.asm _ _ _ _).trans (Keep.asm _ _ _ _)
    · exact Keep.asm _ _ _ _
  | .arith op a b, arg, out, inl, L, L', h, hj => by
    simp only [inScope, Option.bind_eq_some_iff] at h
    obtain ⟨L1, h1, h2⟩ := h
    simp only [toSrc, jumps] at hj ⊢
    exact comps_bin (comps_prog a _ _ _ _ _ h1 (by omega)) (comps_prog b _ _ _ _ _ h2 (by omega))
  | .rel op a b, arg, out, inl, L, L', h, hj => by
    simp only [inScope, Option.bind_eq_some_iff] at h
    obtain ⟨L1, h1, h2⟩ := h
    simp only [toSrc, jumps] at hj ⊢
    exact comps_bin (comps_prog a _ _ _ _ _ h1 (by omega)) (comps_prog b _ _ _ _ _ h2 (by omega))
  | .eq op a b, arg, out, inl, L, L', h, hj => by
    simp only [inScope, Option.bind_eq_some_iff] at h
    obtain ⟨L1, h1, h2⟩ := h
    simp only [toSrc, jumps] at hj ⊢
    exact comps_bin (comps_prog a _ _ _ _ _ h1 (by omega)) (comps_prog b _ _ _ _ _ h2 (by omega))
  | .and a b, arg, out, inl, L, L', h, hj => by
    simp only [inScope, Option.bind_eq_some_iff] at h
    obtain ⟨L1, h1, h2⟩ := h
    simp only [toSrc, jumps] at hj ⊢
    exact comps_and (comps_prog a _ _ _ _ _ h1 (by omega)) (comps_prog b _ _ _ _ _ h2 (by omega))
  | .or a b, arg, out, inl, L, L', h, hj => by
    simp only [inScope, Option.bind_eq_some_iff] at h
    obtain ⟨L1, h1, h2⟩ := h
    simp only [toSrc, jumps] at hj ⊢
    exact comps_or (comps_prog a _ _ _ _ _ h1 (by omega)) (comps_prog b _ _ _ _ _ h2 (by omega))
  | .seq a b, arg, out, inl, L, L', h, hj => by
    simp only [inScope, Option.bind_eq_some_iff] at h
    obtain ⟨L1, h1, h2⟩ := h
    simp only [toSrc, jumps] at hj ⊢
    exact comps_seq (comps_prog a _ _ _ _ _ h1 (by omega)) (comps_prog b _ _ _ _ _ h2 (by omega))
  | .not a, arg, out, inl, L, L', h, hj => by
    simp only [inScope] at h
    simp only [toSrc, jumps] at hj ⊢
    have ih := comps_prog a _ _ _ _ _ h hj
    refine comps_wrap fun reg st p => ?_
    obtain ⟨s1, h1, o1⟩ := ih reg (st.regs reg) ((Keep.regs _ _).pre p)
    simp only [comp, h1]
    exact ⟨_, rfl, o1.mid (Keep.regs _ _) (Keep.asm _ _ _ _)⟩
  | .bitnot a, arg, out, inl, L, L', h, hj => by
    simp only [inScope] at h
    simp only [toSrc, jumps] at hj ⊢
    have ih := comps_prog a _ _ _ _ _ h hj
    refine comps_wrap fun reg st p => ?_
    obtain ⟨s1, h1, o1⟩ := ih reg (st.regs reg) ((Keep.regs _ _).pre p)
    simp only [comp, h1]
    exact ⟨_, rfl, o1.mid (Keep.regs _ _) (Keep.asm _ _ _ _)⟩
  | .group a, arg, out, inl, L, L', h, hj => by
    simp only [inScope] at h
    split at h
    · rename_i ha
      simp only [toSrc, jumps] at hj ⊢
      have ih := comps_prog a _ _ _ _ _ h hj
      intro reg st p
      simp only [comp]
      rw [if_pos ha]
      exact ih reg st p
    · simp at h
  | .ifs c a r, arg, out, inl, L, L', h, hj => by
    simp only [inScope, Option.bind_eq_some_iff] at h
    obtain ⟨L2, ⟨L1, h1, h2⟩, h3⟩ := h
    simp only [toSrc, jumps] at hj ⊢
    have i1 := comps_ifm (comps_prog c _ _ _ _ _ h1 (by omega)) (comps_prog a _ _ _ _ _ h2 (by omega))
    have := comps_chain i1 (comps_tail r _ _ _ _ h3 (by omega))
    exact fun reg st p => by
      have := this 0 reg st p
      cases arg <;> exact this
  | .while c a, arg, out, inl, L, L', h, hj => by
    simp only [inScope, Option.bind_eq_some_iff] at h
    obtain ⟨L1, h1, h2⟩ := h
    simp only [toSrc, jumps] at hj ⊢
    exact comps_wrap (comps_whilem (comps_prog c _ _ _ _ _ h1 (by omega)) (comps_prog a _ _ _ _ _ h2 (by omega)) (by omega))
  | .loop a, arg, out, inl, L, L', h, hj => by
    simp only [inScope] at h
    simp only [toSrc, jumps] at hj ⊢
    exact comps_wrap (comps_loopm (comps_prog a _ _ _ _ _ h (by omega)) (by omega))
  | .ret a, arg, out, inl, L, L', h, hj => by
    simp only [inScope] at h
    simp only [toSrc, jumps] at hj ⊢
    have ih := comps_prog a _ _ _ _ _ h hj
    refine comps_wrap fun reg st p => ?_
    obtain ⟨s1, h1, o1⟩ := ih reg (st.regs reg) ((Keep.regs _ _).pre p)
    simp only [comp, h1]
    exact ⟨_, rfl, o1.mid (Keep.regs _ _) (Keep.asm _ _ _ _)⟩
  | .fn ps b, arg, out, inl, L, L', h, hj => by
    simp only [inScope] at h
    split at h
    · rename_i hn
      obtain rfl := by simpa using h
      obtain ⟨L1, h1⟩ := Option.isSome_iff_exists.1 hn.2
      obtain rfl := inScope_fn b _ _ _ _ h1
      simp only [toSrc, jumps] at hj ⊢
      exact comps_wrap (comps_fn hn.1 hj (comps_prog b _ _ _ _ _ h1 hj))
    · simp at h
  | .call x as, arg, out, inl, L, L', h, hj => by
    simp only [inScope] at h
    split at h
    · rename_i hx
      simp only [toSrc, jumps] at hj ⊢
      exact comps_wrap (comps_call hx.1 (by simpa [isWord] using hx.2) (comps_args as _ _ _ _ h hj))
    · simp at h
theorem comps_tail : ∀ (r : Else) (out : Outside) (inl : Bool) (L L' : List Ident), inScopeTail isWord isGlobal out inl r L = some L' → jumpsTail r ≤ MAX_JUMPS →
    CompsT (toTail r) out inl L L' (jumpsTail r)
  | .none, out, inl, L, L', h, hj => by
    simp only [inScopeTail, Option.some.injEq] at h; subst h
    simp only [toTail, jumpsTail]
    exact comps_skip
  | .elsif c a r, out, inl, L, L', h, hj => by
    simp only [inScopeTail, Option.bind_eq_some_iff] at h
    obtain ⟨L2, ⟨L1, h1, h2⟩, h3⟩ := h
    simp only [toTail, jumpsTail] at hj ⊢
    have i1 := comps_elsifm (comps_prog c _ _ _ _ _ h1 (by omega)) (comps_prog a _ _ _ _ _ h2 (by omega))
    exact comps_chain i1 (comps_tail r _ _ _ _ h3 (by omega))
  | .els a, out, inl, L, L', h, hj => by
    simp only [inScopeTail] at h
    simp only [toTail, jumpsTail, wrap] at hj ⊢
    exact comps_chain (k := 0) (comps_elsem (comps_prog a _ _ _ _ _ h hj)) comps_skip
theorem comps_args : ∀ (r : Args) (out : Outside) (inl : Bool) (L L' : List Ident), inScopeArgs isWord isGlobal out inl r L = some L' → jumpsArgs r ≤ MAX_JUMPS →
    Comps (toArgs r) false out inl L L' (jumpsArgs r)
  | .nil, out, inl, L, L', h, hj => by
    simp only [inScopeArgs, Option.some.injEq] at h; subst h
    simp only [toArgs, jumpsArgs]
    intro reg st p
    simp only [comp]
    exact ⟨_, rfl, (Keep.refl _).okay p.locals⟩
  | .cons a r, out, inl, L, L', h, hj => by
    simp only [inScopeArgs] at h
    split at h
    · simp at h
    · rename_i hn
      simp only [Option.bind_eq_some_iff] at h
      obtain ⟨L1, h1, h2⟩ := h
      simp only [toArgs, jumpsArgs] at hj ⊢
      exact comps_acons (by rw [isAssign_toSrc]; simpa using hn) (comps_prog a _ _ _ _ _ h1 (by omega)) (comps_args r _ _ _ _ h2 (by omega))
end

/-- Well-scoped programs compile, and functions in them have no locals but their parameters. -/
theorem compile_ok (p : Prog) (hs : (inScope isWord isGlobal none false false p []).isSome) (hj : jumps p ≤ MAX_JUMPS) :
    ∃ f, compile (toSrc p) = some f ∧ Plain f := by
  obtain ⟨L', h⟩ := Option.isSome_iff_exists.1 hs
  obtain ⟨st, h1, o⟩ := comps_prog p _ _ _ _ _ h hj 0 (CSt.open [] [] (0+1))
    ⟨rfl, ⟨rfl, rfl⟩, rfl, by simpa [jl, CSt.open, CSt.new] using hj, by simp [AllFlat, CSt.open, CSt.new]⟩
  unfold compile compileFn
  rw [h1]
  exact ⟨_, rfl, o.flat (by simp [AllFlat, CSt.open, CSt.new])⟩

end Potion.Compile
