import Verif.Model.Clone
import Verif.Props.Can
/-!
C83: the clone of a function. `SameTuple` is what a copy of a tuple means: another tuple with the same elements.
-/
namespace Potion.Obj

/-- Two values are tuples with the same elements. -/
def SameTuple {V : Type} (elems : V → Option (List V)) (x y : V) : Prop := ∃ l, elems x = some l ∧ elems y = some l

variable {V : Type}

theorem clone_shares {w : World V} {s fuel} {f n : Fn V} (e : protoClone w s fuel f = some n) :
    n.name = f.name ∧ n.source = f.source ∧ n.stack = f.stack ∧ n.tree = f.tree ∧ n.pathsize = f.pathsize ∧
      n.localsize = f.localsize ∧ n.upvalsize = f.upvalsize ∧ n.code = f.code ∧
      (w.elems f.sig = none → n.sig = f.sig) := by
  simp only [protoClone, Option.bind_eq_bind, Option.bind_eq_some_iff] at e
  obtain ⟨a, -, b, -, c, -, d, -, g, -, i, -, j, hj, e⟩ := e
  simp only [Option.pure_def, Option.some.injEq] at e
  subst e
  refine ⟨rfl, rfl, rfl, rfl, rfl, rfl, rfl, rfl, fun h => ?_⟩
  simpa [cloneSig, h] using hj.symm

/-- C83: a clone that is made has the name, the source, the tree, the sizes and the very instructions of the function it was
made from; the signature is kept if it is not a tuple. -/
theorem C83_shares_partial {w : World V} {s fuel} {f n : Fn V} (e : protoClone w s fuel f = some n) :
    n.name = f.name ∧ n.source = f.source ∧ n.stack = f.stack ∧ n.tree = f.tree ∧ n.pathsize = f.pathsize ∧
      n.localsize = f.localsize ∧ n.upvalsize = f.upvalsize ∧ n.code = f.code ∧
      (w.elems f.sig = none → n.sig = f.sig) := clone_shares e

/-- The fields of a function that hold tuples. -/
def tuples (f : Fn V) : List V := [f.protos, f.paths, f.locals, f.upvals, f.values, f.debugs]

/-- No class on the chain of strings has a method whose name is that value. -/
def NotAName (w : World V) (h : List (Event Cl)) (l : List Nat) (x : V) : Prop := ∀ c ∈ l, ¬ HasMethod h c (w.key x)

theorem nearest_none {h : List (Event Cl)} {n l} (a : ∀ c ∈ l, ¬ HasMethod h c n) : nearest h n l = none := by
  rw [← Option.not_isSome_iff_eq_none, nearest_isSome]
  rintro ⟨c, hc, hm⟩
  exact a c hc hm

theorem send_none {w : World V} {h s} (r : Runs h s) (hl : LookupKept h) {p : Ptr} {v : Vt} (hv : s.objs[p]? = some v)
    {l : List Ptr} (hc : Chain mixin h p l) {fuel : Nat} (hf : l.length < fuel) {c x : V} (ht : w.typeOf c = v.type)
    (hx : NotAName w h l x) : send w s fuel c x = some w.nil := by
  unfold send
  rw [ht, C27_nearest r hl p v hv l hc _ fuel hf, nearest_none hx]

/-- C83 fails, for every function: unless the program has defined a method of strings whose name is one of the tuples of that
very function, all of the tables of the clone are nil. The code asks the string `clone` for a method called by the tuple,
instead of the tuple for its method `clone`. -/
theorem C83_refuted_nil {w : World V} {h s} (r : Runs h s) (hl : LookupKept h) (p : Ptr) (v : Vt)
    (hv : s.objs[p]? = some v) (l : List Ptr) (hc : Chain mixin h p l) (fuel : Nat) (hf : l.length < fuel)
    (ht : w.typeOf (w.str "clone") = v.type) (f : Fn V) (hx : ∀ x ∈ tuples f, NotAName w h l x)
    (hs : (w.elems f.sig).isSome → NotAName w h l f.sig) :
    ∃ n, protoClone w s fuel f = some n ∧ (∀ x ∈ tuples n, x = w.nil) ∧
      ((w.elems f.sig).isSome → n.sig = w.nil) := by
  have k : ∀ x, NotAName w h l x → send w s fuel (w.str "clone") x = some w.nil :=
    fun x a => send_none r hl hv hc hf ht a
  have q : ∀ x ∈ tuples f, send w s fuel (w.str "clone") x = some w.nil := fun x a => k x (hx x a)
  simp only [tuples, List.mem_cons, List.not_mem_nil, or_false, forall_eq_or_imp, forall_eq] at q
  obtain ⟨q1, q2, q3, q4, q5, q6⟩ := q
  by_cases hsig : (w.elems f.sig).isSome
  · refine ⟨_, by
      simp only [protoClone, q1, q2, q3, q4, q5, q6, cloneSig, if_pos hsig, k _ (hs hsig), Option.bind_eq_bind,
        Option.bind_some, Option.pure_def]; rfl, ?_, ?_⟩
    · simp [tuples]
    · simp
  · refine ⟨_, by
      simp only [protoClone, q1, q2, q3, q4, q5, q6, cloneSig, if_neg hsig, Option.bind_eq_bind,
        Option.bind_some, Option.pure_def]; rfl, ?_, ?_⟩
    · simp [tuples]
    · simp [hsig]

/-- C83 fails, for every function: no table of the clone is a copy of the table of the function (nil is not a tuple). -/
theorem C83_refuted_copy {w : World V} (hn : w.elems w.nil = none) {h s} (r : Runs h s) (hl : LookupKept h) (p : Ptr)
    (v : Vt) (hv : s.objs[p]? = some v) (l : List Ptr) (hc : Chain mixin h p l) (fuel : Nat) (hf : l.length < fuel)
    (ht : w.typeOf (w.str "clone") = v.type) (f : Fn V) (hx : ∀ x ∈ tuples f, NotAName w h l x)
    (hs : (w.elems f.sig).isSome → NotAName w h l f.sig) :
    ∃ n, protoClone w s fuel f = some n ∧ ∀ x ∈ tuples f, ∀ y ∈ tuples n, ¬ SameTuple w.elems x y := by
  obtain ⟨n, e, a, -⟩ := C83_refuted_nil r hl p v hv l hc fuel hf ht f hx hs
  refine ⟨n, e, fun x _ y hy ⟨t, _, b⟩ => ?_⟩
  rw [a y hy, hn] at b
  exact absurd b (by simp)

/-- C83: a table of the clone is a copy only by the program's own doing: then a class on the chain of strings has a method
named by that tuple. -/
theorem C83_copy_only {w : World V} (hn : w.elems w.nil = none) {h s} (r : Runs h s) (hl : LookupKept h) (p : Ptr)
    (v : Vt) (hv : s.objs[p]? = some v) (l : List Ptr) (hc : Chain mixin h p l) (fuel : Nat) (hf : l.length < fuel)
    (ht : w.typeOf (w.str "clone") = v.type) (f n : Fn V) (e : protoClone w s fuel f = some n)
    (hv' : SameTuple w.elems f.values n.values) : ∃ c ∈ l, HasMethod h c (w.key f.values) := by
  by_contra hx
  have hx : NotAName w h l f.values := fun c hc' hm => hx ⟨c, hc', hm⟩
  simp only [protoClone, Option.bind_eq_bind, Option.bind_eq_some_iff] at e
  obtain ⟨a, -, b, -, c, -, d, -, g, hg, i, -, j, -, e⟩ := e
  simp only [Option.pure_def, Option.some.injEq] at e
  subst e
  rw [send_none r hl hv hc hf ht hx] at hg
  obtain ⟨t, _, b⟩ := hv'
  simp only [← Option.some.inj hg, hn] at b
  exact absurd b (by simp)

/-! An example: the interpreter just started; values are numbers, 0 is nil, the tuples are the numbers from 100, and the
string `clone` is 50. -/

def exWorld : World Nat where
  nil := 0
  elems v := if 100 ≤ v then some [v - 100] else none
  typeOf v := if v = 50 then 5 else 1
  key v := v + 1
  str _ := 50
  call c r := some (if c = .fn 1 then 103 else r)

def exFn : Fn Nat :=
  { source := 1, sig := 107, stack := 2, paths := 100, locals := 101, upvals := 102, values := 103, protos := 104,
    debugs := 105, tree := 3, name := 4, pathsize := 0, localsize := 1, upvalsize := 0, code := [1, 0, 0, 0] }

example : Chain mixin bootEvents 16 [16, 4, 0] :=
  .cons (p := 4) (by decide +kernel) (.cons (p := 0) (by decide +kernel) (.last (by decide +kernel)))
example : (boot.objs[16]?).map (·.type) = some 5 := by decide +kernel
example : ∀ x ∈ tuples exFn, SameTuple exWorld.elems x x := by
  simp [tuples, exFn, SameTuple, exWorld]
example : (protoClone exWorld boot 5 exFn).map (fun n => (tuples n, n.sig, n.name, n.code)) =
    some ([0, 0, 0, 0, 0, 0], 0, 4, [1, 0, 0, 0]) := by decide +kernel
/-- With a method of strings named by the tuple of values, that table (only) comes out as what the method gives. -/
example : (protoClone exWorld (defMethod boot 16 104 (.fn 1)) 5 exFn).map (fun n => tuples n) =
    some [0, 0, 0, 0, 103, 0] := by decide +kernel
example : NotAName exWorld bootEvents [16, 4, 0] 103 := by
  intro c _ ⟨m, hm⟩
  simp [bootEvents, exWorld, lookupName] at hm

end Potion.Obj
