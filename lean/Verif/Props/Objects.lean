import Verif.Proof.Objects
import Mathlib.Data.Fintype.EquivFin
/-!
C27, C28, C49: classes. `Runs h s` (Proof/Objects.lean): the program has done `h` and the classes are now `s`.
`Chain`, `nearest`, `HasVar` (Spec/Objects.lean) are read off the history alone.
-/
namespace Potion.Obj

/-- The program has not replaced the method `lookup` itself. -/
def LookupKept (h : List (Event Cl)) : Prop := ∀ c m, Event.defined c lookupName m ∈ h → m = .lookup

theorem methodIn_mem {h : List (Event Cl)} {x n m} (e : methodIn h x n = some m) : Event.defined x n m ∈ h := by
  induction h using List.reverseRecOn with
  | nil => simp [methodIn] at e
  | append_singleton h a ih =>
    rw [methodIn_append] at e
    cases a with
    | made => exact List.mem_append_left _ (ih e)
    | defined c k f =>
      simp only [] at e
      split at e
      · rename_i hk; obtain ⟨rfl, rfl⟩ := hk; obtain rfl := by simpa using e
        simp
      · exact List.mem_append_left _ (ih e)

theorem methodIn_isSome {h : List (Event Cl)} {x n m} (e : Event.defined x n m ∈ h) : (methodIn h x n).isSome := by
  induction h using List.reverseRecOn with
  | nil => simp at e
  | append_singleton h a ih =>
    rw [methodIn_append]
    rcases List.mem_append.1 e with e' | e'
    · cases a with
      | made => exact ih e'
      | defined c k f =>
        have := ih e'
        by_cases hk : c = x ∧ k = n
        · simp [hk]
        · simp only [hk, if_false]; exact this
    · obtain rfl := by simpa using e'
      simp

theorem Runs.boot_mem {h s} (r : Runs h s) : Event.defined mixin lookupName .lookup ∈ h := by
  induction r with
  | boot => simp [bootEvents]
  | cls _ _ _ _ _ _ ih => simp [ih]
  | dfn _ _ _ _ _ ih => simp [ih]

theorem Runs.made {h s} (r : Runs h s) : ∀ p m par own, Event.made p m par own ∈ h →
    ∃ v, s.objs[p]? = some v ∧ v.metac = some m := by
  induction r with
  | boot =>
    have : ∀ e ∈ bootEvents, (match e with
        | .made p m _ _ => decide ((Obj.boot.objs[p]?).map (·.metac) = some (some m))
        | _ => true) = true := by decide +kernel
    intro p m par own hm
    have := this _ hm
    simp only [decide_eq_true_eq, Option.map_eq_some_iff] at this
    exact this
  | @cls h s self ivars q s' v mt par r hc hp hv hm ih =>
    intro p m par' own he
    rcases List.mem_append.1 he with he | he
    · obtain ⟨w, hw, e⟩ := ih p m par' own he
      obtain ⟨_, _, _, _, _, _, _, rfl⟩ := mkClass_eq hc
      exact ⟨w, by rw [List.getElem?_append_left (List.getElem?_eq_some_iff.1 hw).1]; exact hw, e⟩
    · simp at he
      obtain ⟨rfl, rfl, _⟩ := he
      exact ⟨v, hv, hm⟩
  | dfn p n c r hp ih =>
    intro q m par own he
    obtain ⟨w, hw, e⟩ := ih q m par own (by simpa using he)
    simp only [defMethod, List.getElem?_modify, hw]
    refine ⟨_, rfl, ?_⟩
    split <;> simpa using e

theorem nearest_cons (h : List (Event Cl)) (n c : Nat) (l : List Nat) :
    nearest h n (c :: l) = match methodIn h c n with | some m => some m | none => nearest h n l := by
  rw [nearest]; cases methodIn h c n <;> rfl

theorem walkDirect_spec {h s} (i : Inv h s) {p l} (c : Chain mixin h p l) (key fuel) (hp : p < s.objs.length)
    (hf : l.length ≤ fuel) : walkDirect s key fuel p = .ret (nearest h key l) := by
  induction c generalizing fuel with
  | @last c e =>
    obtain ⟨f, rfl⟩ : ∃ f, fuel = f + 1 := ⟨fuel - 1, by simp at hf; omega⟩
    have hv := List.getElem?_eq_getElem hp
    have h1 := i.meth c _ hv key
    have h2 := i.par c _ hv
    rw [e] at h2
    rw [walkDirect, hv, nearest_cons]
    simp only [h1]
    cases methodIn h c key with
    | some m => rfl
    | none =>
      simp only [nearest]
      cases hpp : s.objs[c].parent with
      | none => rfl
      | some t =>
        have := h2.2 t hpp
        rw [hpp] at h2
        simp only [Option.bind_some] at h2
        rw [h2.1] at this; simp at this
  | @cons c q l e _ ih =>
    obtain ⟨f, rfl⟩ : ∃ f, fuel = f + 1 := ⟨fuel - 1, by simp at hf; omega⟩
    have hv := List.getElem?_eq_getElem hp
    have h1 := i.meth c _ hv key
    have h2 := (i.par c _ hv).1
    rw [e] at h2
    rw [walkDirect, hv, nearest_cons]
    simp only [h1]
    cases methodIn h c key with
    | some m => rfl
    | none =>
      cases hpp : s.objs[c].parent with
      | none => rw [hpp] at h2; simp at h2
      | some t =>
        rw [hpp] at h2
        simp only [Option.bind_some] at h2
        simp only [h2]
        exact ih f (i.step hp e) (by simp at hf; omega)

theorem mixin_lookup {h s} (r : Runs h s) (hl : LookupKept h) : methodIn h mixin lookupName = some .lookup := by
  obtain ⟨m, hm⟩ := Option.isSome_iff_exists.1 (methodIn_isSome r.boot_mem)
  rw [hm, hl _ _ (methodIn_mem hm)]

theorem sendLookup_spec {h s} (r : Runs h s) (hl : LookupKept h) (fl p key) (hp : p < s.objs.length) :
    sendLookup s (fl + 2) p key = .ret (methodIn h p key) := by
  have i := r.inv
  have hv := List.getElem?_eq_getElem hp
  have mx := i.mix
  have hm2 := (i.vts _ _ mx).1
  have wm : ∀ f, walkDirect s lookupName (f + 1) mixin = .ret (some .lookup) := by
    intro f
    rw [walkDirect, List.getElem?_eq_getElem hm2]
    simp only [i.meth _ _ (List.getElem?_eq_getElem hm2), mixin_lookup r hl]
  have fin : (match Found.ret (some Cl.lookup) with
      | .ret (some .lookup) => match lookup s p key with
        | none => Found.bad
        | some c => .ret c
      | .ret _ => .custom
      | e => e) = .ret (methodIn h p key) := by
    simp only [lookup, hv, Option.map_some, i.meth _ _ hv]
  unfold sendLookup start
  simp only [hv]
  cases hmt : s.objs[p].metac with
  | none => simp only [mx, Option.map_some, wm]; exact fin
  | some m =>
    obtain ⟨w, hw, _, hpm⟩ := i.met p _ m hv hmt
    have : walkDirect s lookupName (fl + 2) m = .ret (some .lookup) := by
      rw [walkDirect, hw]
      simp only [i.meth _ _ hw]
      cases hml : methodIn h m lookupName with
      | some c => rw [hl _ _ (methodIn_mem hml)]
      | none =>
        have h2 := (i.par m _ hw).1
        rw [hpm] at h2
        cases hwp : w.parent with
        | none => rw [hwp] at h2; simp at h2
        | some t =>
          rw [hwp] at h2
          simp only [Option.bind_some] at h2
          simp only [h2]; exact wm fl
    simp only [this]; exact fin

theorem walk_spec {h s} (r : Runs h s) (hl : LookupKept h) {p l} (c : Chain mixin h p l) (key fl fuel)
    (hp : p < s.objs.length) (hf : l.length ≤ fuel) : walk s key (fl + 2) fuel p = .ret (nearest h key l) := by
  have i := r.inv
  induction c generalizing fuel with
  | @last c e =>
    obtain ⟨f, rfl⟩ : ∃ f, fuel = f + 1 := ⟨fuel - 1, by simp at hf; omega⟩
    have hv := List.getElem?_eq_getElem hp
    have h2 := i.par c _ hv
    rw [e] at h2
    rw [walk, sendLookup_spec r hl fl c key hp, nearest_cons]
    cases methodIn h c key with
    | some m => rfl
    | none =>
      simp only [hv, nearest]
      cases hpp : s.objs[c].parent with
      | none => rfl
      | some t =>
        have := h2.2 t hpp
        rw [hpp] at h2
        simp only [Option.bind_some] at h2
        rw [h2.1] at this; simp at this
  | @cons c q l e _ ih =>
    obtain ⟨f, rfl⟩ : ∃ f, fuel = f + 1 := ⟨fuel - 1, by simp at hf; omega⟩
    have hv := List.getElem?_eq_getElem hp
    have h2 := (i.par c _ hv).1
    rw [e] at h2
    rw [walk, sendLookup_spec r hl fl c key hp, nearest_cons]
    cases methodIn h c key with
    | some m => rfl
    | none =>
      simp only [hv]
      cases hpp : s.objs[c].parent with
      | none => rw [hpp] at h2; simp at h2
      | some t =>
        rw [hpp] at h2
        simp only [Option.bind_some] at h2
        simp only [h2]
        exact ih f (i.step hp e) (by simp at hf; omega)

theorem Chain.pos {m : Nat} {h : List (Event Cl)} {c l} (a : Chain m h c l) : 0 < l.length := by cases a <;> simp
theorem Chain.head {m : Nat} {h : List (Event Cl)} {c l} (a : Chain m h c l) : ∃ t, l = c :: t := by
  cases a <;> exact ⟨_, rfl⟩

theorem Chain.sub {m : Nat} {h : List (Event Cl)} {c l} (a : Chain m h c l) : ∀ x ∈ l, ∃ l', Chain m h x l' ∧
    l'.length ≤ l.length := by
  induction a with
  | last e => intro x hx; rw [List.mem_singleton.1 hx]; exact ⟨_, .last e, le_refl _⟩
  | cons e a ih =>
    intro x hx
    rcases List.mem_cons.1 hx with rfl | hx
    · exact ⟨_, .cons e a, le_refl _⟩
    · obtain ⟨l', h1, h2⟩ := ih x hx
      exact ⟨l', h1, by simp; omega⟩

theorem Chain.nodup {m : Nat} {h : List (Event Cl)} {c l} (a : Chain m h c l) : l.Nodup := by
  induction a with
  | last => simp
  | @cons c p l e a ih =>
    refine List.nodup_cons.2 ⟨fun hc => ?_, ih⟩
    obtain ⟨l', h1, h2⟩ := a.sub c hc
    rw [h1.unique (.cons e a)] at h2
    simp at h2

/-- C27: a message to a value of a class finds the method of the nearest class on the parent chain that has one, the last
one defined there, and nil if there is none. (As long as the program does not redefine `lookup`, which replaces the
lookup itself.) -/
theorem C27_nearest {h s} (r : Runs h s) (hl : LookupKept h) (p : Ptr) (v : Vt) (hv : s.objs[p]? = some v)
    (l : List Ptr) (hc : Chain mixin h p l) (msg : Name) (fuel : Nat) (hf : l.length < fuel) :
    bind s fuel (.val v.type) msg = .ret (nearest h msg l) := by
  have i := r.inv
  obtain ⟨h1, h2⟩ := i.typ p v hv
  have hp := (List.getElem?_eq_some_iff.1 hv).1
  have := hc.pos
  obtain ⟨f, rfl⟩ : ∃ f, fuel = f + 2 := ⟨fuel - 2, by omega⟩
  unfold bind start
  simp only [h1, if_true, h2, Option.map_some]
  split
  · exact walkDirect_spec i hc msg _ hp (by omega)
  · exact walk_spec r hl hc msg _ _ hp (by omega)

/-- C27: the same for messages to a class: they start at its metaclass. -/
theorem C27_class {h s} (r : Runs h s) (hl : LookupKept h) (p m : Ptr) (par own) (hm : Event.made p m par own ∈ h)
    (l : List Ptr) (hc : Chain mixin h m l) (msg : Name) (fuel : Nat) (hf : l.length < fuel) :
    bind s fuel (.cls p) msg = .ret (nearest h msg l) := by
  have i := r.inv
  obtain ⟨v, hv, e⟩ := r.made p m par own hm
  obtain ⟨w, hw, _⟩ := i.met p v m hv e
  have hp := (List.getElem?_eq_some_iff.1 hw).1
  have := hc.pos
  obtain ⟨f, rfl⟩ : ∃ f, fuel = f + 2 := ⟨fuel - 2, by omega⟩
  unfold bind start
  simp only [hv, e]
  split
  · exact walkDirect_spec i hc msg _ hp (by omega)
  · exact walk_spec r hl hc msg _ _ hp (by omega)

/-- C27: every class has a parent chain, it has no repetitions, and the search along it ends after at most as many steps
as there are classes. -/
theorem C27_chain {h s} (r : Runs h s) (p : Ptr) (hp : p < s.objs.length) :
    ∃ l, Chain mixin h p l ∧ l.Nodup ∧ l.length ≤ s.objs.length := by
  have i := r.inv
  obtain ⟨l, hl⟩ := i.chain p hp
  refine ⟨l, hl, hl.nodup, ?_⟩
  have hm := hl.mem (· < s.objs.length) hp (fun x y hx => i.step hx)
  have := List.Subperm.length_le (hl.nodup.subperm (l₂ := List.range s.objs.length) (fun x hx => by simpa using hm x hx))
  simpa using this

theorem nearest_congr {h h' : List (Event Cl)} {n : Nat} {l : List Nat} (e : ∀ c ∈ l, methodIn h' c n = methodIn h c n) :
    nearest h' n l = nearest h n l := by
  induction l with
  | nil => rfl
  | cons c l ih =>
    rw [nearest_cons, nearest_cons, e c (by simp), ih (fun c hc => e c (by simp [hc]))]

theorem nearest_append (h : List (Event Cl)) (n : Nat) (a b : List Nat) :
    nearest h n (a ++ b) = (nearest h n a).orElse fun _ => nearest h n b := by
  induction a with
  | nil => simp [nearest]
  | cons c a ih =>
    rw [List.cons_append, nearest_cons, nearest_cons, ih]
    cases methodIn h c n <;> simp

/-- C27: defining the method `n` in class `c` does not change what a message `msg` does to the values of class `p` if the
message is another one, or `c` is not on `p`'s chain, or a class nearer to `p` has the method. If `c` is on the chain and
no nearer class has the method, the message finds the new definition. -/
theorem C27_define {h s} (r : Runs h s) (c : Ptr) (n : Name) (f : Cl) (hcl : c < s.objs.length)
    (hl : LookupKept (h ++ [.defined c n f])) (p : Ptr) (v : Vt) (hv : s.objs[p]? = some v) (l : List Ptr)
    (hc : Chain mixin h p l) (msg : Name) (fuel : Nat) (hf : l.length < fuel) :
    bind (defMethod s c n f) fuel (.val v.type) msg =
      if n = msg ∧ c ∈ l ∧ nearest h n (l.takeWhile (· ≠ c)) = none then .ret (some f)
      else bind s fuel (.val v.type) msg := by
  have r' := Runs.dfn c n f r hcl
  have hl0 : LookupKept h := fun a b hab => hl a b (by simp [hab])
  have hp := (List.getElem?_eq_some_iff.1 hv).1
  have hc' : Chain mixin (h ++ [.defined c n f]) p l :=
    hc.mono (fun _ => True) trivial (fun _ _ _ _ => trivial) (fun x _ => parentIn_append_def ..)
  obtain ⟨w, hw, ht⟩ : ∃ w, (defMethod s c n f).objs[p]? = some w ∧ w.type = v.type := by
    simp only [defMethod, List.getElem?_modify, hv]
    exact ⟨_, rfl, by split <;> rfl⟩
  rw [← ht, C27_nearest r' hl p w hw l hc' msg fuel hf, ht, C27_nearest r hl0 p v hv l hc msg fuel hf]
  rw [← apply_ite]
  congr 1
  clear hf ht hw hc' hv hp hc r' hl0 hl r
  by_cases hn : n = msg
  · subst hn
    induction l with
    | nil => simp [nearest]
    | cons x l ih =>
      rw [nearest_cons, nearest_cons, methodIn_append]
      by_cases hx : c = x
      · subst hx; simp [nearest]
      · simp only [hx, false_and, if_false, ih, List.mem_cons, false_or, true_and]
        have : (x :: l).takeWhile (· ≠ c) = x :: l.takeWhile (· ≠ c) := by simp [Ne.symm hx]
        rw [this, nearest_cons]
        cases hm : methodIn h x n with
        | some m => simp
        | none => simp
  · simp only [hn, false_and, if_false]
    exact nearest_congr (fun x _ => by rw [methodIn_append]; simp [hn])

/-! An example: class `10` of name-free identities: `A = Object class`, `B = A class`, methods 5 and 6. -/
def exA : St := ((mkClass boot none (some [7, 8])).map (·.2)).getD boot
def exB : St := ((mkClass exA (some 42) (some [9, 8])).map (·.2)).getD boot

theorem exA_runs : Runs (bootEvents ++ [.made 42 43 (some 4) [7, 8]]) exA := by
  obtain ⟨v, hv⟩ : ∃ v, exA.objs[42]? = some v := ⟨_, rfl⟩
  refine Runs.cls (self := none) (ivars := some [7, 8]) (q := 42) (s' := exA) (v := v) (mt := 43) 4 .boot rfl rfl hv ?_
  have : (exA.objs[42]?).bind (·.metac) = some 43 := by decide +kernel
  rw [hv] at this; exact this
theorem exB_runs : Runs (bootEvents ++ [.made 42 43 (some 4) [7, 8]] ++ [.made 44 45 (some 42) [9, 8]]) exB := by
  obtain ⟨v, hv⟩ : ∃ v, exB.objs[44]? = some v := ⟨_, rfl⟩
  refine Runs.cls (self := some 42) (ivars := some [9, 8]) (q := 44) (s' := exB) (v := v) (mt := 45) 42 exA_runs rfl rfl hv ?_
  have : (exB.objs[44]?).bind (·.metac) = some 45 := by decide +kernel
  rw [hv] at this; exact this
def exBd : St := defMethod exB 42 5 (.fn 1)
theorem exBd_runs : Runs (bootEvents ++ [.made 42 43 (some 4) [7, 8]] ++ [.made 44 45 (some 42) [9, 8]] ++
    [.defined 42 5 (.fn 1)]) exBd := .dfn 42 5 (.fn 1) exB_runs (by decide +kernel)
example : Chain mixin (bootEvents ++ [.made 42 43 (some 4) [7, 8]] ++ [.made 44 45 (some 42) [9, 8]] ++
    [.defined 42 5 (.fn 1)]) 44 [44, 42, 4, 0] :=
  .cons (by decide +kernel) (.cons (by decide +kernel) (.cons (by decide +kernel) (.last (by decide +kernel))))
/-- A value of `B` inherits `A`'s method; Object does not get it. -/
example : bind exBd 5 (.val 47) 5 = .ret (some (.fn 1)) ∧ bind exBd 5 (.val 11) 5 = .ret none := by decide +kernel

/-- C27 needs `lookup` to be left alone: a class that defines `lookup` for itself takes over. -/
theorem C27_custom_lookup : bind (defMethod exBd 45 lookupName (.fn 2)) 5 (.val 47) 5 = .custom := by decide +kernel

/-! ## C28 -/

/-- C28: classes and metaclasses have distinct types, and a type leads to its class. -/
theorem C28_types {h s} (r : Runs h s) (p q : Ptr) (v w : Vt) (hv : s.objs[p]? = some v) (hw : s.objs[q]? = some w) :
    (v.type = w.type ↔ p = q) ∧ kind s v.type = some p := by
  have i := r.inv
  obtain ⟨a, b⟩ := i.typ p v hv
  obtain ⟨_, c⟩ := i.typ q w hw
  refine ⟨⟨fun e => ?_, fun e => ?_⟩, by simp [kind, a, b]⟩
  · rw [e, c] at b; exact (Option.some.inj b).symm
  · subst e; rw [hv] at hw; rw [Option.some.inj hw]
example : (exB.objs[42]?).map (·.type) = some 45 ∧ (exB.objs[44]?).map (·.type) = some 47 := by decide +kernel

/-- C28 is false for types made with `delegated`: the type and its metaclass get the same number, and values of that
type are treated as values of the metaclass. -/
theorem C28_refuted : ∃ q s', delegated boot 4 = some (q, s') ∧ ∃ v w m, s'.objs[q]? = some v ∧ v.metac = some m ∧ m ≠ q ∧
    s'.objs[m]? = some w ∧ w.type = v.type ∧ kind s' v.type = some m := by
  obtain ⟨x, hx⟩ : ∃ x, delegated boot 4 = some x := ⟨_, rfl⟩
  have key : ∀ x ∈ delegated boot 4, x.1 = 42 ∧ (x.2.objs[42]?).bind (·.metac) = some 43 ∧
      (x.2.objs[42]?).map (·.type) = some 45 ∧ (x.2.objs[43]?).map (·.type) = some 45 ∧ kind x.2 45 = some 43 := by
    decide +kernel
  obtain ⟨a, b, c, d, e⟩ := key x hx
  obtain ⟨q, s'⟩ := x
  simp only at a b c d e
  subst a
  refine ⟨42, s', hx, ?_⟩
  obtain ⟨v, hv, hb⟩ := Option.bind_eq_some_iff.1 b
  obtain ⟨v', hv', hc⟩ := Option.map_eq_some_iff.1 c
  obtain ⟨w, hw, hd⟩ := Option.map_eq_some_iff.1 d
  rw [hv] at hv'; obtain rfl := Option.some.inj hv'
  exact ⟨v, w, 43, hv, hb, by decide, hw, by rw [hc, hd], by rw [hc]; exact e⟩

theorem ivfunc_some {uniq : Name → BitVec 32} {l : List Name} {k u i} (h : ivfunc uniq l k u = some i) :
    k ≤ i ∧ i < k + l.length ∧ (l[i - k]?).map uniq = some u := by
  induction l generalizing k with
  | nil => simp [ivfunc] at h
  | cons v l ih =>
    unfold ivfunc at h
    split at h
    · obtain rfl := by simpa using h
      simp_all
    · obtain ⟨a, b, c⟩ := ih h
      refine ⟨by omega, by simp; omega, ?_⟩
      obtain ⟨j, hj⟩ : ∃ j, i - k = j + 1 := ⟨i - k - 1, by omega⟩
      rw [hj, List.getElem?_cons_succ]
      rw [show i - (k + 1) = j by omega] at c
      exact c

theorem ivfunc_none {uniq : Name → BitVec 32} {l : List Name} {k u} :
    ivfunc uniq l k u = none ↔ ∀ x ∈ l, uniq x ≠ u := by
  induction l generalizing k with
  | nil => simp [ivfunc]
  | cons v l ih =>
    unfold ivfunc
    split
    · simp_all
    · simp_all

/-- An object of the class at `p`: `new` makes one, and setting variables keeps it one. -/
def IsObject {V : Type} (s : St) (p : Ptr) (o : Object V) : Prop :=
  ∃ v, s.objs[p]? = some v ∧ o.type = v.type ∧ o.slots.length = v.ivlen

theorem findIvar_eq {V : Type} {h s} (r : Runs h s) (uniq : Name → BitVec 32) {p : Ptr} {o : Object V} {v : Vt}
    (hv : s.objs[p]? = some v) (ht : o.type = v.type) (x : Name) :
    findIvar uniq s o x = some (ivfunc uniq (v.ivars.getD []) 0 (uniq x)) := by
  obtain ⟨_, b⟩ := r.inv.typ p v hv
  unfold findIvar
  rw [ht, b]
  simp only [Option.bind_some, hv]
  cases v.ivars <;> rfl

/-- C28: a class that is not a metaclass and not Mixin makes objects; their variables are all nil. -/
theorem C28_new {V : Type} (nil : V) {h s} (r : Runs h s) (uniq : Name → BitVec 32) (p : Ptr) (o : Object V)
    (ho : objectNew nil s p = some o) : IsObject s p o ∧ ∀ x, objGet nil uniq s o x = some nil := by
  unfold objectNew at ho
  split at ho
  · simp at ho
  · rename_i v hv
    split at ho
    · simp at ho
    · split at ho
      · simp at ho
      · obtain rfl := by simpa using ho
        refine ⟨⟨v, hv, rfl, by simp⟩, fun x => ?_⟩
        unfold objGet
        rw [findIvar_eq r uniq hv rfl]
        have hlen := (r.inv.iv p v hv).1
        cases hi : ivfunc uniq (v.ivars.getD []) 0 (uniq x) with
        | none => rfl
        | some i =>
          have := ivfunc_some hi
          simp [hlen, List.getElem?_replicate]; omega

/-- C28: an object has a slot for every instance variable of its class and of its ancestors: what is stored can be read
back, the object stays an object of its class, and nothing outside the object is touched. -/
theorem C28_set_get {V : Type} (nil : V) {h s} (r : Runs h s) (uniq : Name → BitVec 32) (p : Ptr) (o : Object V)
    (ho : IsObject s p o) (l : List Ptr) (hc : Chain mixin h p l) (x : Name) (hx : HasVar h l x) (a : V) :
    ∃ o', objSet uniq s o x a = some o' ∧ IsObject s p o' ∧ objGet nil uniq s o' x = some a := by
  obtain ⟨v, hv, ht, hs⟩ := ho
  obtain ⟨h1, h2⟩ := r.inv.iv p v hv
  have hm := (h2 l hc x).2 hx
  unfold objSet
  rw [findIvar_eq r uniq hv ht]
  cases hi : ivfunc uniq (v.ivars.getD []) 0 (uniq x) with
  | none => exact absurd rfl (ivfunc_none.1 hi x hm)
  | some i =>
    have hb := ivfunc_some hi
    have hlt : i < o.slots.length := by rw [hs, h1]; omega
    simp only [hlt, if_true]
    refine ⟨_, rfl, ⟨v, hv, ht, by simpa using hs⟩, ?_⟩
    unfold objGet
    rw [findIvar_eq r uniq hv (by exact ht), hi]
    simp [hlt]

/-- C28: distinct variables do not interfere: setting one leaves the others alone. Partial: if the random 32-bit identities
of the names differ (`C28_refuted_uniq`). -/
theorem C28_distinct_partial {V : Type} (nil : V) {h s} (r : Runs h s) (uniq : Name → BitVec 32) (p : Ptr) (o o' : Object V)
    (ho : IsObject s p o) (x y : Name) (hxy : uniq x ≠ uniq y) (a : V) (hs : objSet uniq s o x a = some o') :
    objGet nil uniq s o' y = objGet nil uniq s o y := by
  obtain ⟨v, hv, ht, hl⟩ := ho
  unfold objSet at hs
  rw [findIvar_eq r uniq hv ht] at hs
  cases hi : ivfunc uniq (v.ivars.getD []) 0 (uniq x) with
  | none => rw [hi] at hs; rw [← Option.some.inj hs]
  | some i =>
    rw [hi] at hs
    simp only [] at hs
    split at hs
    · obtain rfl := by simpa using hs
      unfold objGet
      rw [findIvar_eq r uniq hv (by exact ht), findIvar_eq r uniq hv ht]
      cases hj : ivfunc uniq (v.ivars.getD []) 0 (uniq y) with
      | none => rfl
      | some j =>
        have hne : i ≠ j := by
          rintro rfl
          have h1 := (ivfunc_some hi).2.2
          rw [(ivfunc_some hj).2.2] at h1
          exact hxy (Option.some.inj h1).symm
        simp [hne]
    · simp at hs

/-- C28: a variable neither the class nor an ancestor has reads nil, and setting it does nothing. Partial: as above. -/
theorem C28_unknown_partial {V : Type} (nil : V) {h s} (r : Runs h s) (uniq : Name → BitVec 32) (p : Ptr) (o : Object V)
    (ho : IsObject s p o) (l : List Ptr) (hc : Chain mixin h p l) (x : Name) (hx : ∀ y, HasVar h l y → uniq y ≠ uniq x)
    (a : V) : objGet nil uniq s o x = some nil ∧ objSet uniq s o x a = some o := by
  obtain ⟨v, hv, ht, hs⟩ := ho
  obtain ⟨h1, h2⟩ := r.inv.iv p v hv
  have : ivfunc uniq (v.ivars.getD []) 0 (uniq x) = none := ivfunc_none.2 fun y hy => hx y ((h2 l hc y).1 hy)
  unfold objGet objSet
  rw [findIvar_eq r uniq hv ht, this]
  exact ⟨rfl, rfl⟩

/-- A class with its own variables 9, 8 and the inherited 7. -/
example : HasVar (bootEvents ++ [.made 42 43 (some 4) [7, 8]] ++ [.made 44 45 (some 42) [9, 8]]) [44, 42, 4, 0] 7 :=
  ⟨42, by simp, 43, some 4, [7, 8], by simp, by simp⟩
example : (objectNew 0 exB 44).map (·.slots) = some [0, 0, 0] := by decide +kernel

/-- C28 is false for the names themselves: whatever identities they got, there are two different names such that a class
with both variables keeps them in the same place. -/
theorem C28_refuted_uniq (uniq : Name → BitVec 32) : ∃ x y : Name, x ≠ y ∧ ∃ q s o o', mkClass boot none (some [x, y]) =
    some (q, s) ∧ objectNew 0 s q = some o ∧ objSet uniq s o x 1 = some o' ∧ objGet 0 uniq s o' y = some 1 := by
  obtain ⟨x, y, hxy, he⟩ : ∃ x y : Nat, x ≠ y ∧ uniq x = uniq y := by
    by_contra hn
    push_neg at hn
    refine not_injective_infinite_finite (fun x => (uniq x).toFin) (fun a b hab => ?_)
    by_contra hne; exact hn a b hne (BitVec.toFin_inj.1 hab)
  refine ⟨x, y, hxy, ?_⟩
  obtain ⟨qs, hq⟩ : ∃ qs, mkClass boot none (some [x, y]) = some qs := ⟨_, rfl⟩
  obtain ⟨q, s⟩ := qs
  obtain ⟨par, parent, e1, e2, rfl, iv, e3, hs⟩ := mkClass_eq hq
  have hv : s.objs[boot.objs.length]? = some ⟨boot.size, some parent.type, iv, (iv.getD []).length, fun _ => none,
      some (boot.objs.length + 1)⟩ := by subst hs; simp
  have r : Runs _ s := Runs.cls _ .boot hq rfl hv rfl
  have hpi : parent.ivars = none := by
    have : par = 4 := by
      simp only [] at e1
      have h4 : boot.vts TOBJECT = some 4 := rfl
      rw [h4] at e1; exact (Option.some.inj e1).symm
    subst this
    exact (boot_iv 4 (by omega) parent e2).1
  rw [hpi] at e3
  subst e3
  have hnew : objectNew 0 s boot.objs.length = some ⟨boot.size, [0, 0]⟩ := by
    unfold objectNew
    rw [hv]
    simp only [boot_size]
    rfl
  have fi : ∀ (o : Object Nat) z, o.type = boot.size → findIvar uniq s o z = some (ivfunc uniq [x, y] 0 (uniq z)) :=
    fun o z ho => findIvar_eq r uniq hv ho z
  refine ⟨_, s, _, ⟨boot.size, [1, 0]⟩, rfl.trans hq, hnew, ?_, ?_⟩
  · unfold objSet
    rw [fi _ _ rfl]
    simp [ivfunc]
  · unfold objGet
    rw [fi _ _ rfl]
    simp [ivfunc, he]

/-! ## C49 -/

/-- C49: `subclass?` of a heap object of class `p` and the class `q` is true exactly if `q` is on the chain of `p`. -/
theorem C49_subclass_partial {h s} (r : Runs h s) (p q : Ptr) (v : Vt) (hv : s.objs[p]? = some v) (hq : q < s.objs.length)
    (l : List Ptr) (hc : Chain mixin h p l) (fuel : Nat) (hf : l.length ≤ fuel) :
    subclass s fuel v.type true q = some (decide (q ∈ l)) := by
  have i := r.inv
  have hw := List.getElem?_eq_getElem hq
  have loop : ∀ {p l}, Chain mixin h p l → ∀ v, s.objs[p]? = some v → p ≠ q → ∀ fuel, l.length ≤ fuel →
      subclassLoop s s.objs[q].type fuel v.type = some (decide (q ∈ l)) := by
    intro p l c
    induction c with
    | @last c e =>
      intro v hv hne fuel hf
      obtain ⟨f, rfl⟩ : ∃ f, fuel = f + 1 := ⟨fuel - 1, by simp at hf; omega⟩
      have h2 := i.par c v hv
      rw [e] at h2
      rw [subclassLoop, St.vtable, (i.typ c v hv).2, Option.bind_some, hv]
      simp only []
      cases hpp : v.parent with
      | none => simp only [List.mem_singleton, Ne.symm hne, decide_false]
      | some t =>
        have := h2.2 t hpp
        rw [hpp] at h2
        simp only [Option.bind_some] at h2
        rw [h2.1] at this; simp at this
    | @cons c p' l e _ ih =>
      intro v hv hne fuel hf
      obtain ⟨f, rfl⟩ : ∃ f, fuel = f + 1 := ⟨fuel - 1, by simp at hf; omega⟩
      have h2 := (i.par c v hv).1
      rw [e] at h2
      rw [subclassLoop, St.vtable, (i.typ c v hv).2, Option.bind_some, hv]
      simp only []
      cases hpp : v.parent with
      | none => rw [hpp] at h2; simp at h2
      | some t =>
        rw [hpp] at h2
        simp only [Option.bind_some] at h2
        have hlt := i.step (List.getElem?_eq_some_iff.1 hv).1 e
        have hp' := List.getElem?_eq_getElem hlt
        have ht : s.objs[p'].type = t := i.vty t p' _ h2 hp'
        have hqt : s.objs[q].type = t ↔ q = p' := by
          rw [← ht]; exact (C28_types r q p' _ _ hw hp').1
        by_cases hqp : q = p'
        · obtain ⟨l', rfl⟩ := ‹Chain mixin h p' l›.head
          simp only [hqt.2 hqp, if_true]
          simp [hqp]
        · simp only [mt hqt.1 hqp, if_false]
          rw [← ht, ih _ hp' (Ne.symm hqp) f (by simp at hf; omega)]
          simp [Ne.symm hne]
  by_cases hpq : p = q
  · subst hpq
    obtain ⟨t, rfl⟩ := hc.head
    unfold subclass
    rw [hv]; simp
  · unfold subclass
    rw [hw]
    have hne : v.type ≠ s.objs[q].type := fun e => hpq ((C28_types r p q v _ hv hw).1.1 e)
    simp only [hne, if_false, if_true]
    exact loop hc v hv hpq fuel hf
example : subclass exB 4 47 true 42 = some true ∧ subclass exB 4 45 true 44 = some false := by decide +kernel

/-- C49 is false for integers: their kind is Number (6), Object (4) is on its chain, but `1 subclass?(Object)` is false. -/
theorem C49_refuted : kind boot TNUMBER = some 6 ∧ Chain mixin bootEvents 6 [6, 4, 0] ∧
    ∀ fuel, subclass boot fuel TNUMBER false 4 = some false :=
  ⟨by decide +kernel, .cons (by decide +kernel) (.cons (by decide +kernel) (.last (by decide +kernel))), fun _ => by
    unfold subclass; rfl⟩

end Potion.Obj
