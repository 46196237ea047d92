import Verif.Proof.Frames
/-!
Every function the interpreter meets is a well-formed one, if the program is.
-/
namespace Potion.Vm
open Potion

/-- A word that is a pointer to a function points to a well-formed one. -/
def ValOk (v : Val) : Prop := ∀ g, v = .fn g → WFp g

theorem ValOk.imm (w : PN) : ValOk (.imm w) := by intro g h; simp at h
theorem ValOk.obj (n : Nat) : ValOk (.obj n) := by intro g h; simp at h

def ObjOk : Obj → Prop
  | .dbl .. => True
  | .ref v => ValOk v
  | .clo g up => WFp g ∧ (∀ v ∈ up, ValOk v) ∧ up.length = g.upvalsize

structure Ok (s : State) : Prop where
  wf : WFp s.f
  stack : ∀ k, ValOk (s.stack k)
  heap : ∀ o ∈ s.heap, ObjOk o

theorem Ok.heapOk {s : State} (h : Ok s) : HeapOk s.heap := fun _ _ _ e => (h.heap _ (List.mem_of_getElem? e)).1

theorem Ok.setPos {s : State} (h : Ok s) (p : Nat) : Ok { s with pos := p } := ⟨h.wf, h.stack, h.heap⟩
theorem Ok.withHeap {s : State} (h : Ok s) {hp : List Obj} (ok : ∀ o ∈ hp, ObjOk o) : Ok { s with heap := hp } := ⟨h.wf, h.stack, ok⟩
theorem Ok.push {s : State} (h : Ok s) (o : Obj) (ho : ObjOk o) : ∀ o' ∈ s.heap ++ [o], ObjOk o' := by
  intro o' h'
  rcases List.mem_append.1 h' with h' | h'
  · exact h.heap _ h'
  · obtain rfl := by simpa using h'
    exact ho
theorem Ok.setRef {s : State} (h : Ok s) (n : Nat) {v} (hv : ValOk v) : Ok (s.setRef n v) :=
  h.withHeap fun o ho => by
    rcases List.mem_or_eq_of_mem_set ho with h1 | rfl
    · exact h.heap _ h1
    · exact hv

theorem Ok.rd {s : State} (h : Ok s) {b i v} (e : s.rd b i = some v) : ValOk v := by
  unfold State.rd at e
  split at e
  · obtain rfl := by simpa using e
    exact h.stack _
  · simp at e

theorem Ok.wr {s s' : State} (h : Ok s) {b i v} (hv : ValOk v) (e : s.wr b i v = some s') : Ok s' := by
  obtain ⟨k, _, _, rfl⟩ := wr_some e
  refine ⟨h.wf, fun j => ?_, h.heap⟩
  show ValOk (if j = k then v else s.stack j)
  split
  · exact hv
  · exact h.stack j

theorem Ok.setReg {s s' : State} (h : Ok s) {i v} (hv : ValOk v) (e : s.setReg i v = .run s') : Ok s' := by
  unfold State.setReg at e
  split at e
  · simp at e
  · rename_i s1 h1
    obtain rfl := by simpa using e
    exact (h.wr hv h1).setPos _

theorem Ok.deref {s : State} (h : Ok s) {n v} (e : s.deref n = some v) : ValOk v := by
  unfold State.deref at e
  split at e
  · rename_i v' h1
    obtain rfl := by simpa using e
    exact h.heap _ (List.mem_of_getElem? h1)
  · simp at e

theorem Ok.math {s s' : State} (h : Ok s) {op b} {i : Ins} (e : s.math op b i = .run s') : Ok s' := by
  unfold State.math at e
  split at e
  · split at e
    · split at e
      · split at e
        · exact h.setReg (.imm _) e
        · exact Ok.setReg (h.withHeap (h.push (.dbl ..) trivial)) (.obj _) e
      · split at e
        · exact h.setReg (.imm _) e
        · simp at e
    · simp at e
  · simp at e

theorem Ok.ncmp {s s' : State} (h : Ok s) {c} {i : Ins} (e : s.ncmp c i = .run s') : Ok s' := by
  unfold State.ncmp at e
  split at e
  · split at e
    · exact h.setReg (.imm _) e
    · simp at e
  · simp at e

theorem Ok.veq {s s' : State} (h : Ok s) {c} {i : Ins} (e : s.veq c i = .run s') : Ok s' := by
  unfold State.veq at e
  split at e
  · exact h.setReg (.imm _) e
  · simp at e

theorem Ok.capture : ∀ (n : Nat) (acc : List Val) (s s' : State) (up : List Val), Ok s → (∀ v ∈ acc, ValOk v) →
    s.capture n acc = some (s', up) → Ok s' ∧ (∀ v ∈ up, ValOk v) ∧ up.length = acc.length + n
  | 0, acc, s, s', up, h, ha, e => by
    simp only [State.capture, Option.some.injEq, Prod.mk.injEq] at e
    rw [← e.1, ← e.2]; exact ⟨h, ha, rfl⟩
  | n+1, acc, s, s', up, h, ha, e => by
    simp only [State.capture] at e
    have h := h.setPos (s.pos + 1)
    have add : ∀ v, ValOk v → ∀ v' ∈ acc ++ [v], ValOk v' := by
      intro v hv v' hv'
      rcases List.mem_append.1 hv' with h1 | h1
      · exact ha _ h1
      · obtain rfl := by simpa using h1
        exact hv
    have len : ∀ {w : Val} {P Q : Prop}, P ∧ Q ∧ up.length = (acc ++ [w]).length + n → P ∧ Q ∧ up.length = acc.length + (n+1) := by
      rintro w P Q ⟨h1, h2, h3⟩
      exact ⟨h1, h2, by rw [h3]; simp; omega⟩
    split at e
    · split at e
      · rename_i v hv
        exact len (Ok.capture n _ _ _ _ h (add v (h.rd hv)) e)
      · simp at e
    · split at e
      · rename_i v hv
        split at e
        · exact len (Ok.capture n _ _ _ _ h (add v (h.rd hv)) e)
        · split at e
          · rename_i s1 h1
            exact len (Ok.capture n _ _ _ _ ((h.withHeap (h.push (.ref v) (h.rd hv))).wr (.obj _) h1) (add _ (.obj _)) e)
          · simp at e
      · simp at e
    · simp at e

theorem Ok.putAll {b : Nat} : ∀ (vs : List Val) (i : Nat) (s s' : State), Ok s → (∀ v ∈ vs, ValOk v) → s.putAll b i vs = some s' → Ok s'
  | [], i, s, s', h, hv, e => by
    simp only [State.putAll, Option.some.injEq] at e; subst e; exact h
  | v :: vs, i, s, s', h, hv, e => by
    simp only [State.putAll] at e
    split at e
    · rename_i s1 h1
      exact Ok.putAll vs _ s1 s' (h.wr (hv v (by simp)) h1) (fun v' h' => hv v' (by simp [h'])) e
    · simp at e

theorem Ok.putParams {b : Nat} : ∀ (vs : List (Nat × Val)) (s s' : State), Ok s → (∀ v ∈ vs, ValOk v.2) → s.putParams b vs = some s' → Ok s'
  | [], s, s', h, hv, e => by
    simp only [State.putParams, Option.some.injEq] at e; subst e; exact h
  | (i, v) :: vs, s, s', h, hv, e => by
    simp only [State.putParams] at e
    split at e
    · rename_i s1 h1
      exact Ok.putParams vs s1 s' (h.wr (hv (i, v) (by simp)) h1) (fun v' h' => hv v' (by simp [h'])) e
    · simp at e

theorem Ok.enter {s s' : State} (h : Ok s) {self up args} (hs : ValOk self) (hu : ∀ v ∈ up, ValOk v) (ha : ∀ v ∈ args, ValOk v)
    (e : s.enter self up args = some s') : Ok s' := by
  unfold State.enter at e
  split at e
  · simp at e
  · split at e
    · simp at e
    · rename_i s1 h1
      split at e
      · simp at e
      · rename_i s2 h2
        split at e
        · simp at e
        · rename_i s3 h3
          exact Ok.putParams _ _ _ (Ok.putAll _ _ _ _ ((h.wr hs h1).wr hs h2) hu h3) (fun v hv => ha _ (List.of_mem_zip hv).2) e

theorem Ok.reads {s : State} (h : Ok s) {b : Nat} : ∀ (n : Nat) (i : Int) (vs : List Val), s.reads b n i = some vs → ∀ v ∈ vs, ValOk v
  | 0, i, vs, e => by
    simp only [State.reads, Option.some.injEq] at e; subst e; simp
  | n+1, i, vs, e => by
    simp only [State.reads] at e
    split at e
    · rename_i v vs' h1 h2
      obtain rfl := by simpa using e
      intro v' hv'
      rcases List.mem_cons.1 hv' with rfl | hv'
      · exact h.rd h1
      · exact Ok.reads h n _ _ h2 _ hv'
    · simp at e

theorem Ok.call {s s' : State} (h : Ok s) {i : Ins} (e : s.call i = .run s') : Ok s' := by
  obtain ⟨n, g, up, self, args, t, _, hn, h1, h2, rfl, h3⟩ := call_run h.heapOk e
  have hc : WFp g ∧ (∀ v ∈ up, ValOk v) ∧ _ := h.heap _ (List.mem_of_getElem? hn)
  refine Ok.enter ?_ (h.rd h1) hc.2.1 (h.reads _ _ _ h2) h3
  refine ⟨hc.1, fun j => ?_, h.heap⟩
  show ValOk (if _ then _ else if _ then _ else _)
  split
  · exact .imm _
  · split
    · rintro g ⟨⟩; exact h.wf
    · exact h.stack j

theorem Ok.ret {s s' : State} (h : Ok s) {i : Ins} (e : s.ret i = .run s') : Ok s' := by
  unfold State.ret at e
  split at e
  · split at e
    · rename_i val f p hv hf hp
      simp only [] at e
      split at e
      · split at e
        · simp at e
        · rename_i s1 h1
          obtain rfl := by simpa using e
          refine (Ok.wr ?_ (h.rd hv) h1).setPos _
          exact ⟨h.rd hf f rfl, h.stack, h.heap⟩
      · simp at e
    · simp at e
  · split at e
    · simp at e
    · split at e <;> simp at e

theorem Ok.step {s s' : State} (h : Ok s) (e : s.step = .run s') : Ok s' := by
  obtain ⟨_, _, _, _, hprotos⟩ := h.wf
  unfold State.step at e
  split at e
  · simp only [] at e
    split at e <;> rename_i hop
    all_goals first
      | exact h.math e
      | exact h.ncmp e
      | exact h.veq e
      | exact h.setReg (.imm _) e
      | exact h.call e
      | exact h.ret e
      | simp at e
      | (split at e <;> first | (simp at e; done) | exact h.setReg (h.rd (by assumption)) e | exact h.setReg (.imm _) e)
      | skip
    · split at e
      · rename_i v hv
        split at e
        · split at e
          · exact h.setReg (h.deref (by assumption)) e
          · simp at e
        · exact h.setReg (h.rd hv) e
      · simp at e
    · split at e
      · rename_i v x hv hx
        split at e
        · obtain rfl := by simpa using e
          exact (h.setRef _ (h.rd hx)).setPos _
        · split at e
          · rename_i s1 h1
            obtain rfl := by simpa using e
            exact (h.wr (h.rd hx) h1).setPos _
          · simp at e
      · simp at e
    · split at e
      · split at e
        · split at e
          · exact h.setReg (h.deref (by assumption)) e
          · simp at e
        · simp at e
      · simp at e
    · split at e
      · rename_i v x hv hx
        split at e
        · obtain rfl := by simpa using e
          exact (h.setRef _ (h.rd hx)).setPos _
        · simp at e
      · simp at e
    · split at e
      · split at e
        · exact h.setReg (.imm _) e
        · simp at e
      · simp at e
    · obtain rfl := by simpa using e
      exact h.setPos _
    · split at e
      · obtain rfl := by simpa using e
        exact h.setPos _
      · simp at e
    · split at e
      · obtain rfl := by simpa using e
        exact h.setPos _
      · simp at e
    · split at e
      · rename_i g hg
        split at e
        · rename_i s1 up h1
          obtain ⟨i1, i2, i3⟩ := Ok.capture _ _ _ _ _ h (by simp) h1
          have wg : WFp g := by
            split at hg
            · exact hprotos g (List.mem_of_getElem? hg)
            · simp at hg
          exact Ok.setReg (i1.withHeap (i1.push (.clo g up) ⟨wg, i2, by simpa using i3⟩)) (.obj _) e
        · simp at e
      · simp at e
  · split at e <;> simp at e

theorem Ok.goes : ∀ (n : Nat) (s s' : State), Ok s → State.goes n s s' → Ok s'
  | 0, s, s', h, e => by simp only [State.goes] at e; subst e; exact h
  | n+1, s, s', h, ⟨t, h1, h2⟩ => Ok.goes n t s' (h.step h1) h2

theorem Ok.start {f : Proto} {self heap s} (hf : WFp f) (hs : ValOk self) (hh : ∀ o ∈ heap, ObjOk o) (e : start f self heap = some s) : Ok s :=
  Ok.enter (s := { f := f, pos := 0, cur := 0, stack := fun _ => .imm PN_NIL, heap := heap, grow := fun _ => 0 })
    ⟨hf, fun _ => .imm _, hh⟩ hs (by simp) (by simp) e

theorem goes_snoc : ∀ (n : Nat) (s t u : State), State.goes n s t → t.step = .run u → State.goes (n+1) s u
  | 0, s, t, u, h, e => by simp only [State.goes] at h; subst h; exact ⟨u, e, rfl⟩
  | n+1, s, t, u, ⟨t', h1, h2⟩, e => ⟨t', h1, goes_snoc n t' t u h2 e⟩

theorem goes_split : ∀ (n : Nat) (s u : State), State.goes (n+1) s u → ∃ t, State.goes n s t ∧ t.step = .run u
  | 0, s, u, ⟨t, h1, h2⟩ => by simp only [State.goes] at h2; subst h2; exact ⟨s, rfl, h1⟩
  | n+1, s, u, ⟨t, h1, h2⟩ => by
    obtain ⟨t', h3, h4⟩ := goes_split n t u h2
    exact ⟨t', ⟨t, h1, h3⟩, h4⟩

theorem Inv.goes {gr f0 p0 c0 st0} (hp : p0 < 2^32) : ∀ (n : Nat) (s s' : State), Inv gr f0 p0 c0 st0 s → State.goes n s s' →
    Inv gr f0 p0 c0 st0 s' ∨ ∃ m t, m ≤ n ∧ State.goes m s t ∧ Back gr f0 p0 c0 st0 t
  | 0, s, s', h, e => by simp only [State.goes] at e; subst e; exact .inl h
  | n+1, s, s', h, e => by
    obtain ⟨t, h1, h2⟩ := goes_split n s s' e
    rcases Inv.goes hp n s t h h1 with h3 | ⟨m, t', h3, h4, h5⟩
    · rcases h3.step hp h2 with h4 | h4
      · exact .inl h4
      · exact .inr ⟨n+1, s', by omega, e, h4⟩
    · exact .inr ⟨m, t', by omega, h4, h5⟩

end Potion.Vm
