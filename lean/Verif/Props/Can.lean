import Verif.Model.Can
import Verif.Props.Objects
/-!
C79: what an object can do and what it is. `Runs h s`: the program has done `h` and the classes are now `s`; `Chain` and
`methodIn` (Spec/Objects.lean) are read off the history.
-/
namespace Potion.Obj

/-- The class has a method of that name: the program (or the interpreter, when it started) defined one there. -/
def HasMethod (h : List (Event Cl)) (c : Nat) (n : Name) : Prop := ∃ m, Event.defined c n m ∈ h

theorem hasMethod_iff {h : List (Event Cl)} {c n} : HasMethod h c n ↔ (methodIn h c n).isSome :=
  ⟨fun ⟨_, e⟩ => methodIn_isSome e, fun e => by
    obtain ⟨m, hm⟩ := Option.isSome_iff_exists.1 e; exact ⟨m, methodIn_mem hm⟩⟩

theorem nearest_isSome {h : List (Event Cl)} {n l} : (nearest h n l).isSome ↔ ∃ c ∈ l, HasMethod h c n := by
  induction l with
  | nil => simp [nearest]
  | cons c l ih =>
    rw [nearest_cons]
    cases e : methodIn h c n with
    | some m => simp [hasMethod_iff, e]
    | none => simp [ih, hasMethod_iff, e]

theorem Chain.subset {m : Nat} {h : List (Event Cl)} {c l} (a : Chain m h c l) : ∀ x ∈ l, ∃ l', Chain m h x l' ∧
    l'.length ≤ l.length ∧ ∀ y ∈ l', y ∈ l := by
  induction a with
  | last e => intro x hx; rw [List.mem_singleton.1 hx]; exact ⟨_, .last e, le_refl _, fun _ hy => hy⟩
  | cons e a ih =>
    intro x hx
    rcases List.mem_cons.1 hx with rfl | hx
    · exact ⟨_, .cons e a, le_refl _, fun _ hy => hy⟩
    · obtain ⟨l', h1, h2, h3⟩ := ih x hx
      exact ⟨l', h1, by simp; omega, fun y hy => List.mem_cons_of_mem _ (h3 y hy)⟩

theorem can_of_bind {s fuel r n h} {l : List Nat} (e : bind s fuel r n = .ret (nearest h n l)) (b : Bool) :
    can s fuel r n = some b ↔ (b = true ↔ ∃ c ∈ l, HasMethod h c n) := by
  unfold can; rw [e, ← nearest_isSome]
  cases nearest h n l <;> cases b <;> simp

/-- C79: `x can(n)` for a value `x` of a class is true exactly if some class on the parent chain has a method `n`, and false
otherwise: it always gives an answer. -/
theorem C79_can {h s} (r : Runs h s) (hl : LookupKept h) (p : Ptr) (v : Vt) (hv : s.objs[p]? = some v) (l : List Ptr)
    (hc : Chain mixin h p l) (n : Name) (fuel : Nat) (hf : l.length < fuel) (b : Bool) :
    can s fuel (.val v.type) n = some b ↔ (b = true ↔ ∃ c ∈ l, HasMethod h c n) :=
  can_of_bind (C27_nearest r hl p v hv l hc n fuel hf) b

/-- C79: the same for a class `p` itself, where the chain of its metaclass `m` counts. -/
theorem C79_can_class {h s} (r : Runs h s) (hl : LookupKept h) (p m : Ptr) (par own) (hm : Event.made p m par own ∈ h)
    (l : List Ptr) (hc : Chain mixin h m l) (n : Name) (fuel : Nat) (hf : l.length < fuel) (b : Bool) :
    can s fuel (.cls p) n = some b ↔ (b = true ↔ ∃ c ∈ l, HasMethod h c n) :=
  can_of_bind (C27_class r hl p m par own hm l hc n fuel hf) b

/-- C79: what the values of a class can do, the values of every class below it can do as well. -/
theorem C79_inherits {h s} (r : Runs h s) (hl : LookupKept h) (p q : Ptr) (v w : Vt) (hv : s.objs[p]? = some v)
    (hw : s.objs[q]? = some w) (l : List Ptr) (hc : Chain mixin h p l) (hq : q ∈ l) (n : Name) (fuel : Nat)
    (hf : l.length < fuel) (hn : can s fuel (.val w.type) n = some true) : can s fuel (.val v.type) n = some true := by
  obtain ⟨l', h1, h2, h3⟩ := hc.subset q hq
  have hle : l'.length < fuel := by omega
  rw [C79_can r hl p v hv l hc n fuel hf]
  rw [C79_can r hl q w hw l' h1 n fuel hle] at hn
  obtain ⟨c, hc', hm⟩ := hn.1 rfl
  exact ⟨fun _ => ⟨c, h3 c hc', hm⟩, fun _ => rfl⟩

/-- C79: `can` tells the truth about sending: it is true exactly if the message finds a method. -/
theorem C79_send (s : St) (fuel : Nat) (r : Rcv) (n : Name) :
    can s fuel r n = some true ↔ ∃ m, bind s fuel r n = .ret (some m) := by
  unfold can
  cases bind s fuel r n with
  | ret c => cases c <;> simp
  | _ => simp

/-- C79: `x isa?(q)` for a value of class `p` is true exactly if `q` is that very class. -/
theorem C79_isa {h s} (r : Runs h s) (p q : Ptr) (v w : Vt) (hv : s.objs[p]? = some v) (hw : s.objs[q]? = some w)
    (ptr : Bool) : isa s ptr (.val v.type) q = some (.bool (decide (p = q))) := by
  have h1 := (r.inv.typ p v hv).1
  have h2 := (r.inv.typ q w hw).1
  unfold isa
  rw [hw]
  simp only [h1, h2, not_true_eq_false, and_false, if_false, typeOf]
  have := (C28_types r p q v w hv hw).1
  simp only [this]

/-- C79: a class `isa?` only the class of classes. -/
theorem C79_isa_class {h s} (r : Runs h s) (c q : Ptr) (w : Vt) (hw : s.objs[q]? = some w) :
    isa s true (.cls c) q = some (.bool (decide (q = mixin))) := by
  have mx := r.inv.mix
  obtain ⟨v, hv⟩ : ∃ v, s.objs[mixin]? = some v := ⟨_, List.getElem?_eq_getElem (r.inv.vts _ _ mx).1⟩
  have ht : v.type = TVTABLE := r.inv.vty _ _ _ mx hv
  have := C79_isa r mixin q v w hv hw true
  rw [ht] at this
  have e : isa s true (.cls c) q = isa s true (.val TVTABLE) q := rfl
  rw [e, this]
  simp only [eq_comm]

/-- C79: being of a class and coming below it: `isa?` is the case of `subclass?` where the class is its own kind. -/
theorem C79_isa_subclass {h s} (r : Runs h s) (p q : Ptr) (v w : Vt) (hv : s.objs[p]? = some v) (hw : s.objs[q]? = some w)
    (l : List Ptr) (hc : Chain mixin h p l) (fuel : Nat) (hf : l.length ≤ fuel)
    (hi : isa s true (.val v.type) q = some (.bool true)) : subclass s fuel v.type true q = some true := by
  rw [C79_isa r p q v w hv hw] at hi
  obtain rfl : p = q := by simpa using hi
  rw [C49_subclass_partial r p p v hv (List.getElem?_eq_some_iff.1 hv).1 l hc fuel hf]
  obtain ⟨t, rfl⟩ := hc.head
  simp

/-- C79: `methods` of a class and of its values is the table of what the program defined in that very class, the last
definition of each name. -/
theorem C79_methods {h s} (r : Runs h s) (p m : Ptr) (par own) (hm : Event.made p m par own ∈ h) (v : Vt)
    (hv : s.objs[p]? = some v) : methodTable s (.val v.type) = some (some (methodIn h p)) ∧
      methodTable s (.cls p) = some (some (methodIn h p)) := by
  have i := r.inv
  obtain ⟨h1, h2⟩ := i.typ p v hv
  have e : v.methods = methodIn h p := funext fun n => i.meth p v hv n
  obtain ⟨v', hv', e'⟩ := r.made p m par own hm
  obtain rfl : v = v' := by rw [hv] at hv'; exact Option.some.inj hv'
  constructor
  · unfold methodTable St.vtable
    simp only [h1, if_true, h2, Option.bind_some, hv, Option.map_some, e]
  · unfold methodTable
    simp only [hv, e', e]

/-- C79: an object whose type is not that of a class has no methods; `isa?` is a type error for it. It answers false for such a value that is not an object. -/
theorem C79_foreign {h s} (r : Runs h s) (t : Nat) (ht : s.size ≤ t) (q : Ptr) (w : Vt) (hw : s.objs[q]? = some w) :
    methodTable s (.val t) = some none ∧ isa s true (.val t) q = some .typeError ∧ isa s false (.val t) q = some (.bool false) := by
  have h2 := (r.inv.typ q w hw).1
  refine ⟨by unfold methodTable; dsimp only; rw [if_neg (by omega)], ?_, ?_⟩
  · unfold isa
    rw [hw]
    have : ¬ t < s.size := by omega
    simp [typeOf, h2, this]
  · unfold isa
    rw [hw]
    have : t ≠ w.type := by omega
    simp [typeOf, h2, this]

/-- C79 is false of `isa?` if "is a" is meant to include the classes above: a value of `B`, a class made from `A`, is below
`A` but `isa?(A)` is false. -/
theorem C79_refuted_isa : subclass exBd 4 47 true 42 = some true ∧ isa exBd true (.val 47) 42 = some (.bool false) := by
  decide +kernel

/-- C79 is false of `isa?` and what an object can do for one that has its own `lookup`: `can` asks that method. -/
theorem C79_custom_lookup : can (defMethod exBd 45 lookupName (.fn 2)) 5 (.val 47) 5 = none := by decide +kernel

example : can exBd 5 (.val 47) 5 = some true ∧ can exBd 5 (.val 11) 5 = some false ∧
    isa exBd true (.val 47) 44 = some (.bool true) ∧ isa exBd true (.cls 44) mixin = some (.bool true) := by decide +kernel
example : HasMethod (bootEvents ++ [.made 42 43 (some 4) [7, 8]] ++ [.made 44 45 (some 42) [9, 8]] ++
    [.defined 42 5 (.fn 1)]) 42 5 := ⟨.fn 1, by simp⟩
example : exBd.size ≤ 1000 := by decide +kernel
example : (methodTable exBd (.val 45)).map (·.map (· 5)) = some (some (some (.fn 1))) ∧
    (methodTable exBd (.val 47)).map (·.map (· 5)) = some (some none) := by decide +kernel

end Potion.Obj
