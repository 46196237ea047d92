import Verif.Spec.Gc
import Mathlib.Data.List.Nodup
import Mathlib.Data.List.Range
import Mathlib.Data.List.Perm.Subperm
/-! The collector's invariant. -/
namespace Potion.Gc

/-! ### Objects -/
theorem putEntries_refs : ∀ (es : List (Option (Val × Val))) (vs : List Val), vs.length = (entryRefs es).length →
    entryRefs (putEntries es vs) = vs ∧ (putEntries es vs).map Option.isSome = es.map Option.isSome
  | [], vs, h => by simp [entryRefs] at h; simp [putEntries, entryRefs, h]
  | none :: l, vs, h => by
    have := putEntries_refs l vs (by simpa [entryRefs] using h)
    simp [putEntries, entryRefs, this]
  | some (k, v) :: l, vs, h => by
    match vs, h with
    | k' :: v' :: vs, h =>
      have := putEntries_refs l vs (by simpa [entryRefs] using h)
      simp [putEntries, entryRefs, this]

theorem putEntries_self : ∀ es : List (Option (Val × Val)), putEntries es (entryRefs es) = es
  | [] => rfl
  | none :: l => by simp [putEntries, entryRefs, putEntries_self l]
  | some (k, v) :: l => by simp [putEntries, entryRefs, putEntries_self l]

theorem Obj.refs_put (o : Obj) (vs : List Val) (h : vs.length = o.refs.length) : (o.put vs).refs = vs := by
  cases o <;> simp only [Obj.refs] at h
  case closure => match vs, h with | _ :: _, _ => rfl
  case tuple => rfl
  case table es => exact (putEntries_refs es vs h).1
  case flex => rfl
  case inst => rfl
  case error => simp at h; subst h; rfl
  case cut => simp at h; subst h; rfl
  case raw => simp at h; subst h; rfl
  case weak => match vs, h with | [_], _ => rfl
  case file => match vs, h with | [_], _ => rfl
  case state => match vs, h with | [_, _, _, _, _, _, _, _, _], _ => rfl
  case vtable => match vs, h with | [_, _, _, _, _, _, _], _ => rfl
  case source => match vs, h with | [_, _, _, _], _ => rfl
  case proto => match vs, h with | [_, _, _, _, _, _, _, _, _, _, _], _ => rfl
  case lick => match vs, h with | [_, _, _], _ => rfl

/-- Every reference of the object is updated by the collector, or need not be: names of closures and functions are outside
the evacuated space. -/
def Plain (isFrom : Addr → Bool) (m : Mem) : Obj → Prop
  | .closure _ _ name _ => ∀ a, name = .ref a → isFrom a = false ∧ ∃ o, m[a]? = some (.obj o)
  | .proto _ _ _ _ _ _ _ _ _ _ _ _ name => ∀ a, name = .ref a → isFrom a = false ∧ ∃ o, m[a]? = some (.obj o)
  | .error .. => False
  | .cut _ => False
  | _ => True

theorem Plain.copy {isFrom m o} (h : Plain isFrom m o) : o.copy = o := by
  cases o <;> first | rfl | exact h.elim

theorem Obj.copy_refs (o : Obj) : o.copy.refs = o.refs := by cases o <;> rfl

/-- Updated objects have the shape of the original, and their references correspond if the updated ones do. -/
theorem Plain.put {isFrom m o} (h : Plain isFrom m o) {R : Val → Val → Prop} {vs : List Val}
    (hR : List.Forall₂ R o.refs vs) (himm : ∀ w, R (.imm w) (.imm w))
    (hk : ∀ a, isFrom a = false → (∃ o, m[a]? = some (.obj o)) → R (.ref a) (.ref a)) :
    (o.put vs).shape = o.shape ∧ List.Forall₂ R o.vals (o.put vs).vals := by
  have hl := hR.length_eq.symm
  have name : ∀ n : Val, (∀ a, n = .ref a → isFrom a = false ∧ ∃ o, m[a]? = some (.obj o)) → R n n := by
    intro n hn
    cases n with
    | imm w => exact himm w
    | ref a => exact hk a (hn a rfl).1 (hn a rfl).2
  cases o <;> simp only [Obj.refs] at hl hR
  case closure c sig n d =>
    match vs, hl, hR with
    | s :: d', hl, .cons h1 h2 => exact ⟨by simpa [Obj.put, Obj.shape] using hl, .cons h1 (.cons (name n h) h2)⟩
  case tuple => exact ⟨by simpa [Obj.put, Obj.shape] using hl, hR⟩
  case table i es =>
    obtain ⟨h1, h2⟩ := putEntries_refs es vs hl
    exact ⟨by simp only [Obj.put, Obj.shape, h2], by simp only [Obj.put, Obj.vals, h1]; exact hR⟩
  case flex => exact ⟨by simpa [Obj.put, Obj.shape] using hl, hR⟩
  case inst => exact ⟨by simpa [Obj.put, Obj.shape] using hl, hR⟩
  case error => exact h.elim
  case cut => exact h.elim
  case raw => exact ⟨rfl, .nil⟩
  case weak => match vs, hl with | [_], _ => exact ⟨rfl, hR⟩
  case file => match vs, hl with | [_], _ => exact ⟨rfl, hR⟩
  case state => match vs, hl with | [_, _, _, _, _, _, _, _, _], _ => exact ⟨rfl, hR⟩
  case vtable => match vs, hl with | [_, _, _, _, _, _, _], _ => exact ⟨rfl, hR⟩
  case source => match vs, hl with | [_, _, _, _], _ => exact ⟨rfl, hR⟩
  case lick => match vs, hl with | [_, _, _], _ => exact ⟨rfl, hR⟩
  case proto n =>
    match vs, hl with
    | [_, _, _, _, _, _, _, _, _, _, _], _ =>
      refine ⟨rfl, ?_⟩
      simp only [List.forall₂_cons, Obj.vals, Obj.put] at hR ⊢
      obtain ⟨h1, h2, h3, h4, h5, h6, h7, h8, h9, h10, h11, _⟩ := hR
      exact ⟨h1, h2, h3, h4, h5, h6, h7, h8, h9, h10, h11, name n h, .nil⟩

/-- Every reference is updated or stays where it is. -/
theorem Plain.vals {isFrom m o} (h : Plain isFrom m o) {a} (ha : Val.ref a ∈ o.vals) :
    Val.ref a ∈ o.refs ∨ isFrom a = false ∧ ∃ o, m[a]? = some (.obj o) := by
  cases o <;> simp only [Obj.vals, Obj.refs] at ha ⊢ <;> first | exact .inl ha | skip
  case closure c sig n d =>
    simp only [List.mem_cons] at ha ⊢
    rcases ha with ha | ha | ha
    · exact .inl (.inl ha)
    · exact .inr (h a ha.symm)
    · exact .inl (.inr ha)
  case proto n =>
    simp only [List.mem_cons, List.not_mem_nil, or_false] at ha ⊢
    have : a = a := rfl
    rcases ha with ha | ha | ha | ha | ha | ha | ha | ha | ha | ha | ha | ha
    case inr.inr.inr.inr.inr.inr.inr.inr.inr.inr.inr => exact .inr (h a ha.symm)
    all_goals exact .inl (by simp [ha])
  case error => exact h.elim
  case cut => exact h.elim

theorem Plain.refs_vals {o : Obj} {r} (ha : r ∈ o.refs) : r ∈ o.vals := by
  cases o <;> simp only [Obj.vals, Obj.refs] at ha ⊢ <;> first | exact ha | skip
  case closure => simp only [List.mem_cons] at ha ⊢; tauto
  case proto => simp only [List.mem_cons, List.not_mem_nil, or_false] at ha ⊢; tauto
  all_goals simp at ha

/-! ### Forwarding -/

/-- The same, through memory that survives: nothing on the way is in the evacuated space. -/
inductive Survives (isFrom : Addr → Bool) (m : Mem) : Addr → Addr → Prop
  | here {a o} : isFrom a = false → m[a]? = some (.obj o) → Survives isFrom m a a
  | step {a b v} : isFrom a = false → m[a]? = some (.fwd b) → Survives isFrom m b v → Survives isFrom m a v



/-- `potion_fwd` stops here. -/
def Cell.leaf : Cell → Bool
  | .obj _ => true
  | .copied _ => true
  | _ => false

/-- `potion_fwd` leads from `a` to `v`. -/
inductive Stop (m : Mem) : Addr → Addr → Prop
  | here {a c} : m[a]? = some c → c.leaf = true → Stop m a a
  | step {a b v} : m[a]? = some (.fwd b) → Stop m b v → Stop m a v

theorem Stop.unique {m a v w} (h : Stop m a v) (h' : Stop m a w) : v = w := by
  induction h with
  | here e n => cases h' with
    | here => rfl
    | step e' => rw [e] at e'; cases Option.some.inj e'; cases n
  | step e _ ih => cases h' with
    | here e' n => rw [e] at e'; cases Option.some.inj e'; cases n
    | step e' h' => rw [e] at e'; cases Option.some.inj e'; exact ih h'

theorem Stop.mono {m m' a v} (h : Stop m a v) : (∀ x b : Addr, m[x]? = some (.fwd b) → m'[x]? = some (.fwd b)) →
    ∀ c, m'[v]? = some c → c.leaf = true → Stop m' a v := by
  induction h with
  | here _ _ => intro _ c e n; exact .here e n
  | step e _ ih => intro hx c e' n; exact .step (hx _ _ e) (ih hx c e' n)

theorem Resolves.stop {m a v} (h : Resolves m a v) : Stop m a v := by
  induction h with
  | here e => exact .here e rfl
  | step e _ ih => exact .step e ih

/-- The cells on the way. -/
inductive Way (m : Mem) : Addr → List Addr → Addr → Prop
  | here {a c} : m[a]? = some c → c.leaf = true → Way m a [a] a
  | step {a b l v} : m[a]? = some (.fwd b) → Way m b l v → Way m a (a :: l) v

theorem Stop.way {m a v} (h : Stop m a v) : ∃ l, Way m a l v := by
  induction h with
  | here e n => exact ⟨_, .here e n⟩
  | step e _ ih => obtain ⟨l, hl⟩ := ih; exact ⟨_, .step e hl⟩

theorem Way.unique {m a l l' v v'} (h : Way m a l v) (h' : Way m a l' v') : l = l' := by
  induction h generalizing l' with
  | here e n => cases h' with
    | here => rfl
    | step e' => rw [e] at e'; cases Option.some.inj e'; cases n
  | step e _ ih => cases h' with
    | here e' n => rw [e] at e'; cases Option.some.inj e'; cases n
    | step e' h' => rw [e] at e'; cases Option.some.inj e'; rw [ih h']

theorem Way.sub {m a l v} (h : Way m a l v) : ∀ x ∈ l, ∃ l', Way m x l' v ∧ l'.length ≤ l.length := by
  induction h with
  | here e n => intro x hx; rw [List.mem_singleton.1 hx]; exact ⟨_, .here e n, le_refl _⟩
  | step e h ih =>
    intro x hx
    rcases List.mem_cons.1 hx with rfl | hx
    · exact ⟨_, .step e h, le_refl _⟩
    · obtain ⟨l', h1, h2⟩ := ih x hx
      exact ⟨l', h1, by simp; omega⟩

theorem Way.nodup {m a l v} (h : Way m a l v) : l.Nodup := by
  induction h with
  | here => simp
  | @step c b l v e h ih =>
    refine List.nodup_cons.2 ⟨fun hc => ?_, ih⟩
    obtain ⟨l', h1, h2⟩ := h.sub c hc
    rw [h1.unique (.step e h), List.length_cons] at h2
    omega

theorem Way.lt {m a l v} (h : Way m a l v) : ∀ x ∈ l, x < m.length := by
  induction h with
  | here e => intro x hx; rw [List.mem_singleton.1 hx]; exact (List.getElem?_eq_some_iff.1 e).1
  | step e _ ih =>
    intro x hx
    rcases List.mem_cons.1 hx with rfl | hx
    · exact (List.getElem?_eq_some_iff.1 e).1
    · exact ih x hx

theorem Way.fwd {m a l v} (h : Way m a l v) (f : Nat) (hf : l.length ≤ f) : fwd m f a = some v := by
  induction h generalizing f with
  | here e n =>
    obtain ⟨g, rfl⟩ : ∃ g, f = g + 1 := ⟨f - 1, by simp at hf; omega⟩
    rw [Gc.fwd, e]
    rename_i c
    cases c with
    | fwd b => cases n
    | free => cases n
    | obj => rfl
    | copied => rfl
  | step e _ ih =>
    obtain ⟨g, rfl⟩ : ∃ g, f = g + 1 := ⟨f - 1, by simp at hf; omega⟩
    rw [Gc.fwd, e]
    exact ih g (by simp at hf; omega)

theorem nodup_length_le {l : List Nat} {n : Nat} (h : l.Nodup) (hl : ∀ x ∈ l, x < n) : l.length ≤ n := by
  have := List.Subperm.length_le (h.subperm (l₂ := List.range n) (fun x hx => by simpa using hl x hx))
  simpa using this

theorem Stop.fwd {m a v} (h : Stop m a v) : Gc.fwd m (m.length + 1) a = some v := by
  obtain ⟨l, hl⟩ := h.way
  exact hl.fwd _ (by have := nodup_length_le hl.nodup hl.lt; omega)


theorem Resolves.unique {m a v w} (h : Resolves m a v) (h' : Resolves m a w) : v = w := h.stop.unique h'.stop

theorem Resolves.obj {m a v} (h : Resolves m a v) : ∃ o, m[v]? = some (.obj o) := by
  induction h with
  | here e => exact ⟨_, e⟩
  | step _ _ ih => exact ih

theorem Survives.stop {isFrom m a v} (h : Survives isFrom m a v) : Stop m a v := by
  induction h with
  | here _ e => exact .here e rfl
  | step _ e _ ih => exact .step e ih

theorem Survives.old {isFrom m a v} (h : Survives isFrom m a v) : isFrom v = false := by
  induction h with
  | here h _ => exact h
  | step _ _ _ ih => exact ih

/-! ### The invariant -/

/-- The memory before a collection. -/
structure WF (isFrom : Addr → Bool) (m0 : Mem) (roots : List Val) (S : List Addr) : Prop where
  inMem : ∀ a : Nat, isFrom a = true → a < m0.length
  fresh : ∀ (a n : Nat), m0[a]? ≠ some (.copied n)
  closed : ∀ (a : Nat) c b, m0[a]? = some c → Val.ref b ∈ c.vals → ∃ v, Resolves m0 b v
  roots : ∀ b, Val.ref b ∈ roots → ∃ v, Resolves m0 b v
  young : ∀ (a b : Nat), isFrom a = true → m0[a]? = some (.fwd b) → isFrom b = true
  plain : ∀ (a : Nat) o, m0[a]? = some (.obj o) → Plain isFrom m0 o
  store : ∀ a : Nat, a ∈ S → isFrom a = false ∧ a < m0.length ∧ m0[a]? ≠ some .free
  barrier : ∀ (a : Nat) c b, isFrom a = false → m0[a]? = some c → a ∉ S → Val.ref b ∈ c.vals → isFrom b = false

/-- `w` is where the object at `v` is now. -/
def Img (isFrom : Addr → Bool) (m : Mem) (v w : Addr) : Prop :=
  (isFrom v = true ∧ m[v]? = some (.copied w)) ∨ (isFrom v = false ∧ w = v)

theorem Img.unique {isFrom m v w w'} (h : Img isFrom m v w) (h' : Img isFrom m v w') : w = w' := by
  rcases h with ⟨h1, h2⟩ | ⟨h1, h2⟩ <;> rcases h' with ⟨h3, h4⟩ | ⟨h3, h4⟩
  · rw [h2] at h4; simpa using h4
  · simp [h1] at h3
  · simp [h1] at h3
  · rw [h2, h4]

/-- The word `r` of the original memory has been updated to `r'`. -/
inductive Good (isFrom : Addr → Bool) (m0 m : Mem) : Val → Val → Prop
  | imm (w) : Good isFrom m0 m (.imm w) (.imm w)
  | ref {a v a' w} : Resolves m0 a v → Img isFrom m v w → Survives isFrom m a' w → Good isFrom m0 m (.ref a) (.ref a')

inductive CellGood (isFrom : Addr → Bool) (m0 m : Mem) : Cell → Cell → Prop
  | obj {o vs} : List.Forall₂ (Good isFrom m0 m) o.refs vs → CellGood isFrom m0 m (.obj o) (.obj (o.put vs))
  | fwd {b b'} : Good isFrom m0 m (.ref b) (.ref b') → (b' = b ∨ m0.length ≤ b') → CellGood isFrom m0 m (.fwd b) (.fwd b')

structure Inv (isFrom : Addr → Bool) (m0 : Mem) (roots : List Val) (done : Addr → Prop) (m : Mem) : Prop where
  len : m0.length ≤ m.length
  done_lt : ∀ a : Nat, done a → a < m.length
  evac : ∀ a : Nat, isFrom a = true → m[a]? = m0[a]? ∨ ∃ (n : Nat) (o : Obj), m0[a]? = some (.obj o) ∧ m[a]? = some (.copied n) ∧
    m0.length ≤ n ∧ n < m.length
  inj : ∀ a b n : Nat, isFrom a = true → isFrom b = true → m[a]? = some (.copied n) → m[b]? = some (.copied n) → a = b
  todo : ∀ a : Nat, a < m0.length → isFrom a = false → ¬ done a → m[a]? = m0[a]?
  old : ∀ a : Nat, a < m0.length → isFrom a = false → done a → ∃ c c', m0[a]? = some c ∧ m[a]? = some c' ∧
    CellGood isFrom m0 m c c'
  new : ∀ n : Nat, m0.length ≤ n → n < m.length → ∃ (v : Nat) (o : Obj), isFrom v = true ∧ m0[v]? = some (.obj o) ∧
    m[v]? = some (.copied n) ∧ Live isFrom m0 roots v ∧ (¬ done n → m[n]? = some (.obj o)) ∧
    (done n → ∃ vs, m[n]? = some (.obj (o.put vs)) ∧ List.Forall₂ (Good isFrom m0 m) o.refs vs)

section
variable {isFrom : Addr → Bool} {m0 : Mem} {roots : List Val} {S : List Addr}

/-- What later steps of the collection never undo. -/
structure Keep (isFrom : Addr → Bool) (m m' : Mem) : Prop where
  len : m.length ≤ m'.length
  surv : ∀ x w, Survives isFrom m x w → Survives isFrom m' x w
  copied : ∀ v n : Nat, isFrom v = true → m[v]? = some (.copied n) → m'[v]? = some (.copied n)

theorem Keep.refl (m : Mem) : Keep isFrom m m := ⟨le_refl _, fun _ _ h => h, fun _ _ _ h => h⟩
theorem Keep.trans {m m' m''} (h : Keep isFrom m m') (h' : Keep isFrom m' m'') : Keep isFrom m m'' :=
  ⟨le_trans h.len h'.len, fun x w e => h'.surv x w (h.surv x w e), fun v n a e => h'.copied v n a (h.copied v n a e)⟩

theorem Keep.img {m m' v w} (h : Keep isFrom m m') (e : Img isFrom m v w) : Img isFrom m' v w := by
  rcases e with ⟨e1, e2⟩ | e
  · exact .inl ⟨e1, h.copied _ _ e1 e2⟩
  · exact .inr e

theorem Good.mono {m m' r r'} (h : Keep isFrom m m') (g : Good isFrom m0 m r r') : Good isFrom m0 m' r r' := by
  cases g with
  | imm w => exact .imm w
  | ref h1 h2 h3 => exact .ref h1 (h.img h2) (h.surv _ _ h3)

theorem CellGood.mono {m m' c c'} (h : Keep isFrom m m') (g : CellGood isFrom m0 m c c') :
    CellGood isFrom m0 m' c c' := by
  cases g with
  | obj h1 => exact .obj (h1.imp fun _ _ g => g.mono h)
  | fwd h1 h2 => exact .fwd (h1.mono h) h2

theorem Inv.from_stop (wf : WF isFrom m0 roots S) {done m} (I : Inv isFrom m0 roots done m) {a v}
    (h : Resolves m0 a v) : isFrom a = true → isFrom v = true ∧ Stop m a v := by
  induction h with
  | @here a o e =>
    intro ha
    refine ⟨ha, ?_⟩
    rcases I.evac a ha with h | ⟨n, o', _, h, _⟩
    · exact .here (h.trans e) rfl
    · exact .here h rfl
  | @step a b v e _ ih =>
    intro ha
    obtain ⟨h1, h2⟩ := ih (wf.young a b ha e)
    refine ⟨h1, ?_⟩
    rcases I.evac a ha with h | ⟨n, o', h, _⟩
    · exact .step (h.trans e) h2
    · rw [e] at h; simp at h

/-- A reference of the original memory leads to a live object not yet copied, or to where the object is now. -/
theorem Inv.resolve (wf : WF isFrom m0 roots S) {done m} (I : Inv isFrom m0 roots done m) {a v}
    (h : Resolves m0 a v) : isFrom v = true ∧ Stop m a v ∨ ∃ w, Img isFrom m v w ∧ Survives isFrom m a w := by
  by_cases ha : isFrom a = true
  · exact .inl (I.from_stop wf h ha)
  · simp only [Bool.not_eq_true] at ha
    induction h with
    | @here a o e =>
      right
      have lt := (List.getElem?_eq_some_iff.1 e).1
      refine ⟨a, .inr ⟨ha, rfl⟩, ?_⟩
      by_cases hd : done a
      · obtain ⟨c, c', h1, h2, h3⟩ := I.old a lt ha hd
        rw [e] at h1
        cases Option.some.inj h1
        cases h3 with
        | obj => exact .here ha h2
      · exact .here ha ((I.todo a lt ha hd).trans e)
    | @step a b v e h ih =>
      have lt := (List.getElem?_eq_some_iff.1 e).1
      by_cases hd : done a
      · right
        obtain ⟨c, c', h1, h2, h3⟩ := I.old a lt ha hd
        rw [e] at h1
        cases Option.some.inj h1
        cases h3 with
        | fwd g _ =>
          cases g with
          | ref g1 g2 g3 =>
            cases g1.unique h
            exact ⟨_, g2, .step ha h2 g3⟩
      · have e' := (I.todo a lt ha hd).trans e
        by_cases hb : isFrom b = true
        · obtain ⟨h1, h2⟩ := I.from_stop wf h hb
          exact .inl ⟨h1, .step e' h2⟩
        · rcases ih (by simpa using hb) with ⟨h1, h2⟩ | ⟨w, h1, h2⟩
          · exact .inl ⟨h1, .step e' h2⟩
          · exact .inr ⟨w, h1, .step ha e' h2⟩

/-- A word that has been updated is left alone. -/
theorem upd_surv {m a w} (h : Survives isFrom m a w) : upd isFrom m (.ref a) = some (m, .ref a) := by
  simp [upd, h.stop.fwd, h.old]

theorem upd_good {m r r'} (h : Good isFrom m0 m r r') : upd isFrom m r' = some (m, r') := by
  cases h with
  | imm => rfl
  | ref _ _ h => exact upd_surv h

/-- Appending a copy keeps what survives. -/
theorem Keep.copy {m : Mem} {v : Nat} {o : Obj} {c : Cell} (hv : isFrom v = true) (hm : m[v]? = some (.obj o)) :
    Keep isFrom m (m.set v c ++ [.obj o]) := by
  have lt := (List.getElem?_eq_some_iff.1 hm).1
  have same : ∀ x : Nat, x ≠ v → x < m.length → (m.set v c ++ [.obj o])[x]? = m[x]? := by
    intro x hx hl
    rw [List.getElem?_append_left (by simpa using hl), List.getElem?_set_ne (Ne.symm hx)]
  refine ⟨by simp, ?_, ?_⟩
  · intro x w h
    induction h with
    | @here a o' ha e =>
      exact .here ha ((same a (by rintro rfl; simp [hv] at ha) (List.getElem?_eq_some_iff.1 e).1).trans e)
    | @step a b v' ha e _ ih =>
      exact .step ha ((same a (by rintro rfl; simp [hv] at ha) (List.getElem?_eq_some_iff.1 e).1).trans e) ih
  · intro x n hx e
    exact (same x (by rintro rfl; rw [hm] at e; simp at e) (List.getElem?_eq_some_iff.1 e).1).trans e

theorem Inv.upd (wf : WF isFrom m0 roots S) {done m} (I : Inv isFrom m0 roots done m) {a v}
    (h : Resolves m0 a v) (live : Live isFrom m0 roots v) :
    ∃ m' r', Gc.upd isFrom m (.ref a) = some (m', .ref r') ∧ Inv isFrom m0 roots done m' ∧ Keep isFrom m m' ∧
      Good isFrom m0 m' (.ref a) (.ref r') ∧ (∀ x, isFrom x = false → x < m.length → m'[x]? = m[x]?) ∧
      (∀ w, Survives isFrom m' a w → r' = a) ∧ (r' = a ∨ m0.length ≤ r') := by
  rcases I.resolve wf h with ⟨hv, st⟩ | ⟨w, h1, h2⟩
  · have nos : ∀ m' w, Stop m' a v → Survives isFrom m' a w → False := by
      intro m' w st hw
      have := st.unique hw.stop
      subst this
      have := hw.old
      simp [hv] at this
    obtain ⟨o, ho⟩ := h.obj
    have lt : (v : Nat) < m0.length := wf.inMem v hv
    rcases I.evac v hv with e | ⟨n, o', e0, e, hn, hn'⟩
    · -- first visit: the object is copied
      rw [ho] at e
      have hcopy := (wf.plain v o ho).copy
      have same : ∀ x : Nat, x ≠ v → x < m.length → (m.set v (.copied m.length) ++ [.obj o])[x]? = m[x]? := by
        intro x hx hl
        rw [List.getElem?_append_left (by simpa using hl), List.getElem?_set_ne (Ne.symm hx)]
      have at_v : (m.set v (.copied m.length) ++ [.obj o])[v]? = some (.copied m.length) := by
        have hlt := (List.getElem?_eq_some_iff.1 e).1
        rw [List.getElem?_append_left (by simpa using hlt), List.getElem?_set_self hlt]
      have at_n : (m.set v (.copied m.length) ++ [.obj o])[m.length]? = some (.obj o) := by
        rw [List.getElem?_append_right (by simp)]; simp
      have K : Keep isFrom m (m.set v (.copied m.length) ++ [.obj o]) := .copy hv e
      have oldn : isFrom m.length = false := by
        by_contra hc
        have := wf.inMem _ (by simpa using hc)
        have := I.len
        omega
      refine ⟨m.set v (.copied m.length) ++ [.obj o], m.length, by simp [Gc.upd, st.fwd, hv, e, hcopy], ?_, K,
        .ref h (.inl ⟨hv, at_v⟩) (.here oldn at_n), ?_, fun w hw => (nos _ w (st.mono ?_ _ at_v rfl) hw).elim, .inr I.len⟩
      · refine ⟨?_, ?_, ?_, ?_, ?_, ?_, ?_⟩
        · have := I.len; simp; omega
        · intro x hx; have := I.done_lt x hx; simp; omega
        · intro x hx
          by_cases hxv : x = v
          · subst hxv; exact .inr ⟨m.length, o, ho, at_v, I.len, by simp⟩
          · have hl : x < m.length := lt_of_lt_of_le (wf.inMem x hx) I.len
            rw [same x hxv hl]
            rcases I.evac x hx with h1 | ⟨n, o', h1, h2, h3, h4⟩
            · exact .inl h1
            · exact .inr ⟨n, o', h1, h2, h3, by simp; omega⟩
        · intro x y n hx hy e1 e2
          have big : ∀ z : Nat, isFrom z = true → z ≠ v → (m.set v (.copied m.length) ++ [.obj o])[z]? = some (.copied n) →
              m[z]? = some (.copied n) ∧ n < m.length := by
            intro z hz hzv e3
            rw [same z hzv (lt_of_lt_of_le (wf.inMem z hz) I.len)] at e3
            refine ⟨e3, ?_⟩
            rcases I.evac z hz with h1 | ⟨n', o', h1, h2, h3, h4⟩
            · rw [e3] at h1; exact absurd h1.symm (wf.fresh z n)
            · rw [e3] at h2; obtain rfl := by simpa using h2
              exact h4
          by_cases hxv : x = v <;> by_cases hyv : y = v
          · rw [hxv, hyv]
          · subst hxv; rw [at_v] at e1; obtain rfl := by simpa using e1
            exact absurd (big y hy hyv e2).2 (lt_irrefl _)
          · subst hyv; rw [at_v] at e2; obtain rfl := by simpa using e2
            exact absurd (big x hx hxv e1).2 (lt_irrefl _)
          · exact I.inj x y n hx hy (big x hx hxv e1).1 (big y hy hyv e2).1
        · intro x hx hf hd
          rw [same x (by rintro rfl; simp [hv] at hf) (lt_of_lt_of_le hx I.len)]
          exact I.todo x hx hf hd
        · intro x hx hf hd
          rw [same x (by rintro rfl; simp [hv] at hf) (lt_of_lt_of_le hx I.len)]
          obtain ⟨c, c', h1, h2, h3⟩ := I.old x hx hf hd
          exact ⟨c, c', h1, h2, h3.mono K⟩
        · intro n hn hl
          by_cases hnl : n = m.length
          · subst hnl
            exact ⟨v, o, hv, ho, at_v, live, fun _ => at_n, fun hd => absurd (I.done_lt _ hd) (lt_irrefl _)⟩
          · have hl' : n < m.length := by simp at hl; omega
            obtain ⟨v', o', h1, h2, h3, h4, h5, h6⟩ := I.new n hn hl'
            have ne : n ≠ v := fun hc => absurd (hc ▸ hn) (not_le.2 lt)
            rw [same n ne hl']
            refine ⟨v', o', h1, h2, K.copied _ _ h1 h3, h4, h5, fun hd => ?_⟩
            obtain ⟨vs, e1, e2⟩ := h6 hd
            exact ⟨vs, e1, e2.imp fun _ _ g => g.mono K⟩
      · intro x hx hl
        exact same x (by rintro rfl; simp [hv] at hx) hl
      · intro x b hx
        exact (same x (by rintro rfl; rw [e] at hx; simp at hx) (List.getElem?_eq_some_iff.1 hx).1).trans hx
    · -- already copied
      have alive : Survives isFrom m n n := by
        obtain ⟨v', o', h1, h2, h3, h4, h5, h6⟩ := I.new n hn hn'
        have oldn : isFrom n = false := by
          by_contra hc
          have := wf.inMem _ (by simpa using hc)
          omega
        by_cases hd : done n
        · obtain ⟨vs, e1, _⟩ := h6 hd; exact .here oldn e1
        · exact .here oldn (h5 hd)
      exact ⟨m, n, by simp [Gc.upd, st.fwd, hv, e], I, .refl m, .ref h (.inl ⟨hv, e⟩) alive, fun _ _ _ => rfl,
        fun w hw => (nos m w st hw).elim, .inr hn⟩
  · exact ⟨m, a, upd_surv h2, I, .refl m, .ref h h1 h2, fun _ _ _ => rfl, fun _ _ => rfl, .inl rfl⟩

theorem Inv.updList (wf : WF isFrom m0 roots S) {done} : ∀ (rs : List Val) {m}, Inv isFrom m0 roots done m →
    (∀ a, Val.ref a ∈ rs → ∃ v, Resolves m0 a v ∧ Live isFrom m0 roots v) →
    ∃ m' rs', Gc.updList isFrom m rs = some (m', rs') ∧ Inv isFrom m0 roots done m' ∧ Keep isFrom m m' ∧
      List.Forall₂ (Good isFrom m0 m') rs rs' ∧ (∀ x, isFrom x = false → x < m.length → m'[x]? = m[x]?)
  | [], m, I, _ => ⟨m, [], rfl, I, .refl m, .nil, fun _ _ _ => rfl⟩
  | r :: rs, m, I, h => by
    have step : ∃ m1 r', Gc.upd isFrom m r = some (m1, r') ∧ Inv isFrom m0 roots done m1 ∧ Keep isFrom m m1 ∧
        Good isFrom m0 m1 r r' ∧ (∀ x, isFrom x = false → x < m.length → m1[x]? = m[x]?) := by
      cases r with
      | imm w => exact ⟨m, .imm w, rfl, I, .refl m, .imm w, fun _ _ _ => rfl⟩
      | ref a =>
        obtain ⟨v, hv, lv⟩ := h a (by simp)
        obtain ⟨m1, r', h1, h2, h3, h4, h5, _⟩ := I.upd wf hv lv
        exact ⟨m1, _, h1, h2, h3, h4, h5⟩
    obtain ⟨m1, r', h1, h2, h3, h4, h5⟩ := step
    obtain ⟨m2, rs', g1, g2, g3, g4, g5⟩ := Inv.updList wf rs h2 (fun a ha => h a (by simp [ha]))
    refine ⟨m2, r' :: rs', by simp [Gc.updList, h1, g1], g2, h3.trans g3, .cons (h4.mono g3) g4, fun x hx hl => ?_⟩
    rw [g5 x hx (lt_of_lt_of_le hl h3.len), h5 x hx hl]

theorem updList_good {m} : ∀ {rs rs' : List Val}, List.Forall₂ (Good isFrom m0 m) rs rs' →
    Gc.updList isFrom m rs' = some (m, rs')
  | _, _, .nil => rfl
  | _, _, .cons h t => by simp [Gc.updList, upd_good h, updList_good t]

theorem Obj.put_self (o : Obj) : o.put o.refs = o := by
  cases o <;> first | rfl | (simp only [Obj.put, Obj.refs, putEntries_self])

theorem Obj.put_put (o : Obj) (vs ws : List Val) (h : vs.length = o.refs.length) (h' : ws.length = o.refs.length)
    (e : vs = ws) : (o.put vs).put ws = o.put vs := by
  subst e
  conv_lhs => arg 2; rw [← Obj.refs_put o vs h]
  exact Obj.put_self _


/-! ### Scanning -/

theorem WF.out (wf : WF isFrom m0 roots S) {a : Nat} (h : m0.length ≤ a) : isFrom a = false := by
  by_contra hc
  have := wf.inMem a (by simpa using hc)
  omega

/-- Replacing an object, or a forwarding pointer that leads nowhere yet, keeps what survives. -/
theorem Keep.set {m m' : Mem} {a : Nat} {c c' : Cell} (K : Keep isFrom m m') (hm : m[a]? = some c)
    (hf : isFrom a = false) (h : (∃ o o', c = .obj o ∧ c' = .obj o') ∨
      ∃ b b', c = .fwd b ∧ c' = .fwd b' ∧ ∀ w, Survives isFrom m b w → b' = b)
    (same : ∀ x : Nat, isFrom x = false → x < m.length → m'[x]? = m[x]?) : Keep isFrom m (m'.set a c') := by
  have lt : a < m.length := (List.getElem?_eq_some_iff.1 hm).1
  have at_a : (m'.set a c')[a]? = some c' := List.getElem?_set_self (lt_of_lt_of_le lt K.len)
  have ne : ∀ x : Nat, x ≠ a → (m'.set a c')[x]? = m'[x]? := fun x hx => List.getElem?_set_ne (Ne.symm hx)
  refine ⟨by simpa using K.len, ?_, ?_⟩
  · intro x w hs
    induction hs with
    | @here x o hx e =>
      by_cases hxa : x = a
      · subst hxa
        rw [hm] at e
        obtain rfl := by simpa using e
        rcases h with ⟨o1, o2, _, h2⟩ | ⟨b, b', h1, _⟩
        · exact .here hx (at_a.trans (by rw [h2]))
        · simp at h1
      · exact .here hx ((ne x hxa).trans ((same x hx (List.getElem?_eq_some_iff.1 e).1).trans e))
    | @step x b w hx e hs ih =>
      by_cases hxa : x = a
      · subst hxa
        rw [hm] at e
        obtain rfl := by simpa using e
        rcases h with ⟨o1, o2, h1, _⟩ | ⟨b1, b2, h1, h2, h3⟩
        · simp at h1
        · obtain rfl := by simpa using h1
          rw [h3 w hs] at h2
          exact .step hx (at_a.trans (by rw [h2])) ih
      · exact .step hx ((ne x hxa).trans ((same x hx (List.getElem?_eq_some_iff.1 e).1).trans e)) ih
  · intro v n hv e
    exact (ne v (by rintro rfl; simp [hf] at hv)).trans (K.copied v n hv e)

/-- After a cell has been scanned. -/
theorem Inv.mark (wf : WF isFrom m0 roots S) {done m m'} {a : Nat} {c : Cell} (I : Inv isFrom m0 roots done m')
    (hf : isFrom a = false) (lt : a < m'.length) (K : Keep isFrom m' (m'.set a c))
    (hold : a < m0.length → ∃ c0, m0[a]? = some c0 ∧ CellGood isFrom m0 m' c0 c)
    (hnew : m0.length ≤ a → ∀ v o, isFrom v = true → m0[v]? = some (.obj o) → m'[v]? = some (.copied a) →
      ∃ vs, c = .obj (o.put vs) ∧ List.Forall₂ (Good isFrom m0 m') o.refs vs) (_ : m = m') :
    Inv isFrom m0 roots (fun x => done x ∨ x = a) (m'.set a c) := by
  have at_a : (m'.set a c)[a]? = some c := List.getElem?_set_self lt
  have ne : ∀ x : Nat, x ≠ a → (m'.set a c)[x]? = m'[x]? := fun x hx => List.getElem?_set_ne (Ne.symm hx)
  have nef : ∀ x : Nat, isFrom x = true → (m'.set a c)[x]? = m'[x]? := fun x hx =>
    ne x (by rintro rfl; simp [hf] at hx)
  refine ⟨by simpa using I.len, ?_, ?_, ?_, ?_, ?_, ?_⟩
  · rintro x (hx | rfl)
    · simpa using I.done_lt x hx
    · simpa using lt
  · intro x hx
    rw [nef x hx]
    rcases I.evac x hx with h | ⟨n, o, h1, h2, h3, h4⟩
    · exact .inl h
    · exact .inr ⟨n, o, h1, h2, h3, by simpa using h4⟩
  · intro x y n hx hy e1 e2
    rw [nef x hx] at e1
    rw [nef y hy] at e2
    exact I.inj x y n hx hy e1 e2
  · intro x hx hfx hd
    rw [ne x (fun h => hd (.inr h))]
    exact I.todo x hx hfx (fun h => hd (.inl h))
  · intro x hx hfx hd
    by_cases hxa : x = a
    · subst hxa
      obtain ⟨c0, h1, h2⟩ := hold hx
      exact ⟨c0, c, h1, at_a, h2.mono K⟩
    · rw [ne x hxa]
      obtain ⟨c0, c', h1, h2, h3⟩ := I.old x hx hfx (hd.resolve_right hxa)
      exact ⟨c0, c', h1, h2, h3.mono K⟩
  · intro n hn hl
    have hl' : n < m'.length := by simpa using hl
    obtain ⟨v, o, h1, h2, h3, h4, h5, h6⟩ := I.new n hn hl'
    refine ⟨v, o, h1, h2, (nef v h1).trans h3, h4, ?_, ?_⟩
    · intro hd
      rw [ne n (fun h => hd (.inr h))]
      exact h5 (fun h => hd (.inl h))
    · intro hd
      by_cases hna : n = a
      · subst hna
        obtain ⟨vs, e1, e2⟩ := hnew hn v o h1 h2 h3
        exact ⟨vs, at_a.trans (by rw [e1]), e2.imp fun _ _ g => g.mono K⟩
      · rw [ne n hna]
        obtain ⟨vs, e1, e2⟩ := h6 (hd.resolve_right hna)
        exact ⟨vs, e1, e2.imp fun _ _ g => g.mono K⟩

theorem set_same {m : Mem} {a : Nat} {c : Cell} (h : m[a]? = some c) : m.set a c = m := by
  obtain ⟨lt, e⟩ := List.getElem?_eq_some_iff.1 h
  rw [← e, List.set_getElem_self]

theorem Inv.weaken {done : Addr → Prop} {m} {a : Nat} (I : Inv isFrom m0 roots done m) (hd : done a) :
    Inv isFrom m0 roots (fun x => done x ∨ x = a) m := by
  have : (fun x => done x ∨ x = a) = done := by
    funext x
    exact propext ⟨fun h => h.elim id (fun h => h ▸ hd), .inl⟩
  rw [this]; exact I

/-- Scanning one cell. -/
theorem Inv.scan (wf : WF isFrom m0 roots S) {done m} (I : Inv isFrom m0 roots done m) {a : Nat}
    (hf : isFrom a = false) (lt : a < m.length) (nf : a < m0.length → m0[a]? ≠ some .free) :
    ∃ m', Gc.scan isFrom m a = some m' ∧ Inv isFrom m0 roots (fun x => done x ∨ x = a) m' ∧ Keep isFrom m m' := by
  -- an object `o` of the original memory whose copy, or itself, is now at `a`
  have object : ∀ (v : Nat) o, m0[v]? = some (.obj o) → Live isFrom m0 roots v → m[a]? = some (.obj o) →
      (a < m0.length → v = a) →
      (m0.length ≤ a → m[v]? = some (.copied a) ∧ isFrom v = true) →
      ∃ m', Gc.scan isFrom m a = some m' ∧ Inv isFrom m0 roots (fun x => done x ∨ x = a) m' ∧ Keep isFrom m m' := by
    intro v o ho live hm hv1 hv2
    obtain ⟨m', vs, e1, I', K, e2, e3⟩ := I.updList wf o.refs (fun b hb => by
      obtain ⟨w, hw⟩ := wf.closed v _ b ho (Plain.refs_vals hb)
      exact ⟨w, hw, .step live ho (Plain.refs_vals hb) hw⟩)
    have lt' := lt_of_lt_of_le lt K.len
    have K1 : Keep isFrom m' (m'.set a (.obj (o.put vs))) :=
      Keep.set (.refl m') ((e3 a hf lt).trans hm) hf (.inl ⟨o, _, rfl, rfl⟩) (fun _ _ _ => rfl)
    refine ⟨m'.set a (.obj (o.put vs)), by simp [Gc.scan, hm, e1], ?_, K.trans K1⟩
    refine Inv.mark (m := m') wf I' hf lt' K1 ?_ ?_ rfl
    · intro h
      cases hv1 h
      exact ⟨_, ho, .obj e2⟩
    · intro h v' o' h1 h2 h3
      obtain ⟨g1, g2⟩ := hv2 h
      have := I'.inj v v' a g2 h1 (K.copied _ _ g2 g1) h3
      subst this
      rw [ho] at h2
      obtain rfl := by simpa using h2
      exact ⟨vs, rfl, e2⟩
  -- an object that has been scanned before
  have again : ∀ (o : Obj) (vs : List Val), m[a]? = some (.obj (o.put vs)) → List.Forall₂ (Good isFrom m0 m) o.refs vs →
      Gc.scan isFrom m a = some m := by
    intro o vs hm hg
    have hl := hg.length_eq.symm
    have e : (o.put vs).refs = vs := Obj.refs_put o vs hl
    have : (o.put vs).put vs = o.put vs := Obj.put_put o vs vs hl hl rfl
    simp [Gc.scan, hm, e, updList_good hg, this, set_same hm]
  by_cases h0 : a < m0.length
  · by_cases hd : done a
    · obtain ⟨c, c', h1, h2, h3⟩ := I.old a h0 hf hd
      refine ⟨m, ?_, I.weaken hd, .refl m⟩
      cases h3 with
      | obj hg => exact again _ _ h2 hg
      | fwd hg _ => simp [Gc.scan, h2, upd_good hg, set_same h2]
    · have e := I.todo a h0 hf hd
      obtain ⟨c, hc⟩ : ∃ c, m0[a]? = some c := ⟨m0[a], List.getElem?_eq_some_iff.2 ⟨h0, rfl⟩⟩
      rw [hc] at e
      cases c with
      | obj o => exact object a o hc (.kept hf (.here hc)) e (fun _ => rfl) (fun h => by omega)
      | copied n => exact absurd hc (wf.fresh a n)
      | free => exact absurd hc (nf h0)
      | fwd b =>
        obtain ⟨v, hv⟩ := wf.closed a _ b hc (by simp [Cell.vals])
        obtain ⟨m', b', e1, I', K, e2, e3, e4, e5⟩ := I.upd wf hv (.kept hf (.step hc hv))
        have lt' := lt_of_lt_of_le lt K.len
        have K1 : Keep isFrom m' (m'.set a (.fwd b')) :=
          Keep.set (.refl m') ((e3 a hf lt).trans e) hf (.inr ⟨b, b', rfl, rfl, e4⟩) (fun _ _ _ => rfl)
        refine ⟨m'.set a (.fwd b'), by simp [Gc.scan, e, e1], ?_, K.trans K1⟩
        refine Inv.mark (m := m') wf I' hf lt' K1 ?_ ?_ rfl
        · intro _; exact ⟨_, hc, .fwd e2 e5⟩
        · intro h; omega
  · have h0 : m0.length ≤ a := by omega
    obtain ⟨v, o, h1, h2, h3, h4, h5, h6⟩ := I.new a h0 lt
    by_cases hd : done a
    · obtain ⟨vs, e1, e2⟩ := h6 hd
      exact ⟨m, again o vs e1 e2, I.weaken hd, .refl m⟩
    · exact object v o h2 h4 (h5 hd) (fun h => by omega) (fun _ => ⟨h3, h1⟩)


theorem Inv.scanList (wf : WF isFrom m0 roots S) : ∀ (l : List Addr) {done : Addr → Prop} {m},
    Inv isFrom m0 roots done m → (∀ a : Nat, a ∈ l → isFrom a = false ∧ a < m0.length ∧ m0[a]? ≠ some .free) →
    ∃ m', Gc.scanList isFrom m l = some m' ∧ Inv isFrom m0 roots (fun x => done x ∨ x ∈ l) m' ∧ Keep isFrom m m'
  | [], done, m, I, _ => ⟨m, rfl, by simpa using I, .refl m⟩
  | a :: l, done, m, I, h => by
    obtain ⟨hf, hl, nf⟩ := h a (by simp)
    obtain ⟨m1, e1, I1, K1⟩ := I.scan wf hf (lt_of_lt_of_le hl I.len) (fun _ => nf)
    obtain ⟨m2, e2, I2, K2⟩ := Inv.scanList wf l I1 (fun b hb => h b (by simp [hb]))
    refine ⟨m2, by simp [Gc.scanList, e1, e2], ?_, K1.trans K2⟩
    have : (fun x => done x ∨ x ∈ a :: l) = fun x => (done x ∨ x = a) ∨ x ∈ l := by
      funext x; simp only [List.mem_cons, or_assoc]
    rw [this]; exact I2

/-- There is at most one copy for every object. -/
theorem Inv.bound (wf : WF isFrom m0 roots S) {done m} (I : Inv isFrom m0 roots done m) :
    m.length ≤ 2 * m0.length := by
  have pick : ∀ k : Nat, ∃ v : Nat, k < m.length - m0.length → isFrom v = true ∧ m[v]? = some (.copied (m0.length + k)) := by
    intro k
    by_cases hk : k < m.length - m0.length
    · obtain ⟨v, o, h1, _, h3, _⟩ := I.new (m0.length + k) (by omega) (by omega)
      exact ⟨v, fun _ => ⟨h1, h3⟩⟩
    · exact ⟨0, fun h => absurd h hk⟩
  choose f hf using pick
  have nd : ((List.range (m.length - m0.length)).map f).Nodup := by
    refine List.Nodup.map_on ?_ List.nodup_range
    intro x hx y hy e
    obtain ⟨_, h1⟩ := hf x (List.mem_range.1 hx)
    obtain ⟨_, h2⟩ := hf y (List.mem_range.1 hy)
    rw [e, h2] at h1
    have h1 := Cell.copied.inj (Option.some.inj h1)
    exact Nat.add_left_cancel h1.symm
  have := nodup_length_le nd (n := m0.length) (by
    intro x hx
    obtain ⟨k, hk, rfl⟩ := List.mem_map.1 hx
    exact wf.inMem _ (hf k (List.mem_range.1 hk)).1)
  simp only [List.length_map, List.length_range] at this
  omega

theorem Inv.cheney (wf : WF isFrom m0 roots S) {done : Addr → Prop} : ∀ (f k : Nat) {m},
    Inv isFrom m0 roots (fun x => done x ∨ m0.length ≤ x ∧ x < k) m → m0.length ≤ k → k ≤ m.length →
    2 * m0.length - k < f →
    ∃ m' k', Gc.cheney isFrom f k m = some m' ∧ m'.length = k' ∧
      Inv isFrom m0 roots (fun x => done x ∨ m0.length ≤ x ∧ x < k') m' ∧ Keep isFrom m m'
  | 0, k, m, I, _, _, hf => by omega
  | f+1, k, m, I, h0, hk, hf => by
    by_cases hlt : k < m.length
    · obtain ⟨m1, e1, I1, K1⟩ := I.scan wf (wf.out h0) hlt (fun h => by omega)
      have : (fun x => (done x ∨ m0.length ≤ x ∧ x < k) ∨ x = k) = fun x => done x ∨ m0.length ≤ x ∧ x < k + 1 := by
        funext x
        refine propext ⟨?_, ?_⟩
        · rintro ((h | ⟨h1, h2⟩) | rfl)
          · exact .inl h
          · exact .inr ⟨h1, Nat.lt_succ_of_lt h2⟩
          · exact .inr ⟨h0, Nat.lt_succ_self _⟩
        · rintro (h | ⟨h1, h2⟩)
          · exact .inl (.inl h)
          · rcases Nat.lt_succ_iff_lt_or_eq.1 h2 with h | h
            · exact .inl (.inr ⟨h1, h⟩)
            · exact .inr h
      rw [this] at I1
      have hb := I.bound wf
      obtain ⟨m2, k', e2, e3, I2, K2⟩ := Inv.cheney wf f (k + 1) I1 (by omega) (by have := K1.len; omega) (by omega)
      exact ⟨m2, k', by simp [Gc.cheney, hlt, e1, e2], e3, I2, K1.trans K2⟩
    · refine ⟨m, k, by simp [Gc.cheney, hlt], by omega, I, .refl m⟩

theorem Inv.init (wf : WF isFrom m0 roots S) : Inv isFrom m0 roots (fun _ => False) m0 := by
  refine ⟨le_refl _, fun _ h => h.elim, fun _ _ => .inl rfl, ?_, fun _ _ _ _ => rfl, fun _ _ _ h => h.elim, ?_⟩
  · intro a b n _ _ e; exact absurd e (wf.fresh a n)
  · intro n h1 h2; omega

/-- Where an object is after the collection. -/
def image (isFrom : Addr → Bool) (m : Mem) (v : Addr) : Addr :=
  if isFrom v then match m[v]? with
    | some (.copied n) => n
    | _ => v
  else v

theorem Img.image {m v w} (h : Img isFrom m v w) : image isFrom m v = w := by
  rcases h with ⟨h1, h2⟩ | ⟨h1, h2⟩
  · simp [Gc.image, h1, h2]
  · simp [Gc.image, h1, h2]

theorem release_get (m : Mem) (a : Nat) : (release isFrom m)[a]? = (m[a]?).map fun c => if isFrom a then .free else c := by
  simp [release]

theorem release_keep {m : Mem} {a : Nat} (h : isFrom a = false) : (release isFrom m)[a]? = m[a]? := by
  simp [release, h]

theorem Survives.release {m a w} (h : Survives isFrom m a w) : Resolves (release isFrom m) a w := by
  induction h with
  | here h e => exact .here ((release_keep h).trans e)
  | step h e _ ih => exact .step ((release_keep h).trans e) ih

theorem Good.corr {m r r'} (g : Good isFrom m0 m r r') : Corr m0 (release isFrom m) (image isFrom m) r r' := by
  cases g with
  | imm w => exact .imm w
  | ref h1 h2 h3 => exact .ref h1 (by rw [h2.image]; exact h3.release)

theorem Live.obj {v} (h : Live isFrom m0 roots v) : ∃ o, m0[v]? = some (.obj o) := by
  cases h with
  | root _ h => exact h.obj
  | kept _ h => exact h.obj
  | step _ _ _ h => exact h.obj

theorem forall₂_mem {α β} {R : α → β → Prop} : ∀ {l : List α} {l' : List β}, List.Forall₂ R l l' → ∀ x ∈ l, ∃ y, R x y
  | _, _, .cons h t, x, hx => by
    rcases List.mem_cons.1 hx with rfl | hx
    · exact ⟨_, h⟩
    · exact forall₂_mem t x hx

theorem Forall₂.refl_of {α} {R : α → α → Prop} : ∀ {l : List α}, (∀ x ∈ l, R x x) → List.Forall₂ R l l
  | [], _ => .nil
  | x :: l, h => .cons (h x (by simp)) (Forall₂.refl_of fun y hy => h y (by simp [hy]))

/-- The invariant at the end of a collection. -/
structure Finished (isFrom : Addr → Bool) (m0 : Mem) (roots roots' : List Val) (m : Mem) : Prop where
  preserved : Preserved (Live isFrom m0 roots) m0 (release isFrom m) roots roots' (image isFrom m)
  moved : ∀ v, Live isFrom m0 roots v → isFrom v = true → ∃ n, m[v]? = some (.copied n)
  only : ∀ (n : Nat) o, (release isFrom m)[n]? = some (.obj o) → ∃ v, Live isFrom m0 roots v ∧ image isFrom m v = n
  back : ∀ v n : Nat, isFrom v = true → m[v]? = some (.copied n) → Live isFrom m0 roots v

/-- At the end, what a surviving cell leads to is in its place. -/
theorem Inv.settled (wf : WF isFrom m0 roots S) {m}
    (I : Inv isFrom m0 roots (fun x => x ∈ S ∨ m0.length ≤ x ∧ x < m.length) m) {a v} (h : Resolves m0 a v) :
    isFrom a = false → ∃ w, Img isFrom m v w ∧ Survives isFrom m a w := by
  have nd : ∀ {a : Nat}, a < m0.length → a ∉ S → ¬ (a ∈ S ∨ m0.length ≤ a ∧ a < m.length) := by
    rintro a lt hs (h | ⟨h, _⟩)
    · exact hs h
    · omega
  induction h with
  | @here a o e =>
    intro ha
    have lt := (List.getElem?_eq_some_iff.1 e).1
    refine ⟨a, .inr ⟨ha, rfl⟩, ?_⟩
    by_cases hs : a ∈ S
    · obtain ⟨c, c', h1, h2, h3⟩ := I.old a lt ha (.inl hs)
      rw [e] at h1
      cases Option.some.inj h1
      cases h3 with
      | obj g => exact .here ha h2
    · exact .here ha ((I.todo a lt ha (nd lt hs)).trans e)
  | @step a b v e h ih =>
    intro ha
    have lt := (List.getElem?_eq_some_iff.1 e).1
    by_cases hs : a ∈ S
    · obtain ⟨c, c', h1, h2, h3⟩ := I.old a lt ha (.inl hs)
      rw [e] at h1
      cases Option.some.inj h1
      cases h3 with
      | fwd g _ =>
        cases g with
        | ref g1 g2 g3 =>
          cases g1.unique h
          exact ⟨_, g2, .step ha h2 g3⟩
    · obtain ⟨w, h1, h2⟩ := ih (wf.barrier a _ b ha e hs (by simp [Cell.vals]))
      exact ⟨w, h1, .step ha ((I.todo a lt ha (nd lt hs)).trans e) h2⟩

theorem Inv.finish (wf : WF isFrom m0 roots S) {m} {roots' : List Val}
    (I : Inv isFrom m0 roots (fun x => x ∈ S ∨ m0.length ≤ x ∧ x < m.length) m)
    (hr : List.Forall₂ (Good isFrom m0 m) roots roots') : Finished isFrom m0 roots roots' m := by
  have ofGood : ∀ {a r v}, Good isFrom m0 m (.ref a) r → Resolves m0 a v → ∃ w, Img isFrom m v w := by
    intro a r v g h
    cases g with
    | ref h1 h2 _ => cases h1.unique h; exact ⟨_, h2⟩
  have ofImg : ∀ {v w}, isFrom v = true → Img isFrom m v w → m[v]? = some (.copied w) := by
    intro v w hv h
    rcases h with ⟨_, h⟩ | ⟨h, _⟩
    · exact h
    · simp [hv] at h
  -- the copies
  have copies : ∀ (v n : Nat) o, isFrom v = true → m[v]? = some (.copied n) → m0[v]? = some (.obj o) →
      Live isFrom m0 roots v ∧ isFrom n = false ∧ m0.length ≤ n ∧
      ∃ vs, m[n]? = some (.obj (o.put vs)) ∧ List.Forall₂ (Good isFrom m0 m) o.refs vs := by
    intro v n o hv hn ho
    rcases I.evac v hv with h | ⟨n', o', h1, h2, h3, h4⟩
    · rw [hn] at h; exact absurd h.symm (wf.fresh v n)
    · rw [hn] at h2
      obtain rfl := by simpa using h2
      obtain ⟨v', o'', g1, g2, g3, g4, g5, g6⟩ := I.new n h3 h4
      have := I.inj v v' n hv g1 hn g3
      subst this
      rw [ho] at g2
      obtain rfl := by simpa using g2
      exact ⟨g4, wf.out h3, h3, g6 (.inr ⟨h3, h4⟩)⟩
  have moved : ∀ v, Live isFrom m0 roots v → isFrom v = true → ∃ n, m[v]? = some (.copied n) := by
    intro v hl
    induction hl with
    | @root a v ha h =>
      intro hv
      obtain ⟨r, g⟩ := forall₂_mem hr _ ha
      obtain ⟨w, hw⟩ := ofGood g h
      exact ⟨w, ofImg hv hw⟩
    | @kept a v ha h =>
      intro hv
      obtain ⟨w, hw, _⟩ := I.settled wf h ha
      exact ⟨w, ofImg hv hw⟩
    | @step v o a w hl ho ha h ih =>
      intro hw
      have inRefs : Val.ref a ∈ o.refs := by
        rcases (wf.plain v o ho).vals ha with h1 | ⟨h1, o', h2⟩
        · exact h1
        · cases h.unique (.here h2)
          simp [hw] at h1
      by_cases hv : isFrom v = true
      · obtain ⟨n, hn⟩ := ih hv
        obtain ⟨_, _, _, vs, _, g⟩ := copies v n o hv hn ho
        obtain ⟨r, g⟩ := forall₂_mem g _ inRefs
        obtain ⟨w', hw'⟩ := ofGood g h
        exact ⟨w', ofImg hw hw'⟩
      · have hv : isFrom v = false := by simpa using hv
        by_cases hs : v ∈ S
        · have hlt := (wf.store v hs).2.1
          obtain ⟨c, c', h1, h2, h3⟩ := I.old v hlt hv (.inl hs)
          rw [ho] at h1
          cases Option.some.inj h1
          cases h3 with
          | obj g =>
            obtain ⟨r, g⟩ := forall₂_mem g _ inRefs
            obtain ⟨w', hw'⟩ := ofGood g h
            exact ⟨w', ofImg hw hw'⟩
        · obtain ⟨w', hw', _⟩ := I.settled wf h (wf.barrier v _ a hv ho hs ha)
          exact ⟨w', ofImg hw hw'⟩
  -- objects that stay
  have stay : ∀ a : Nat, isFrom a = false → (∃ o, m0[a]? = some (.obj o)) →
      Corr m0 (release isFrom m) (image isFrom m) (.ref a) (.ref a) := by
    rintro a ha ⟨o, ho⟩
    refine .ref (.here ho) (Survives.release ?_)
    have : image isFrom m a = a := by simp [image, ha]
    rw [this]
    have lt := (List.getElem?_eq_some_iff.1 ho).1
    by_cases hs : a ∈ S
    · obtain ⟨c, c', h1, h2, h3⟩ := I.old a lt ha (.inl hs)
      rw [ho] at h1
      cases Option.some.inj h1
      cases h3 with
      | obj g => exact .here ha h2
    · refine .here ha ((I.todo a lt ha ?_).trans ho)
      rintro (h | ⟨h, _⟩)
      · exact hs h
      · exact absurd lt (not_lt.2 h)
  have upgrade : ∀ {o vs}, List.Forall₂ (Good isFrom m0 m) o.refs vs → Plain isFrom m0 o →
      (o.put vs).shape = o.shape ∧ List.Forall₂ (Corr m0 (release isFrom m) (image isFrom m)) o.vals (o.put vs).vals := by
    intro o vs g hp
    exact hp.put (g.imp fun _ _ g => g.corr) .imm stay
  refine ⟨⟨hr.imp fun _ _ g => g.corr, ?_, ?_⟩, moved, ?_, ?_⟩
  · intro v o hl ho
    by_cases hv : isFrom v = true
    · obtain ⟨n, hn⟩ := moved v hl hv
      obtain ⟨_, h2, _, vs, h3, g⟩ := copies v n o hv hn ho
      have : image isFrom m v = n := Img.image (.inl ⟨hv, hn⟩)
      rw [this]
      exact ⟨_, (release_keep h2).trans h3, upgrade g (wf.plain v o ho)⟩
    · have hv : isFrom v = false := by simpa using hv
      have : image isFrom m v = v := by simp [image, hv]
      rw [this]
      have lt := (List.getElem?_eq_some_iff.1 ho).1
      by_cases hs : v ∈ S
      · obtain ⟨c, c', h1, h2, h3⟩ := I.old v lt hv (.inl hs)
        rw [ho] at h1
        cases Option.some.inj h1
        cases h3 with
        | obj g => exact ⟨_, (release_keep hv).trans h2, upgrade g (wf.plain v o ho)⟩
      · have nd : ¬ (v ∈ S ∨ m0.length ≤ v ∧ v < m.length) := by
          rintro (h | ⟨h, _⟩)
          · exact hs h
          · exact absurd lt (not_lt.2 h)
        refine ⟨o, (release_keep hv).trans ((I.todo v lt hv nd).trans ho), rfl, Forall₂.refl_of ?_⟩
        intro r hr
        cases r with
        | imm w => exact .imm w
        | ref b =>
          obtain ⟨w, hw⟩ := wf.closed v _ b ho hr
          obtain ⟨w', h1, h2⟩ := I.settled wf hw (wf.barrier v _ b hv ho hs hr)
          exact .ref hw (by rw [h1.image]; exact h2.release)
  · intro v w hv hw e
    obtain ⟨ov, hov⟩ := hv.obj
    obtain ⟨ow, how⟩ := hw.obj
    have ltv := (List.getElem?_eq_some_iff.1 hov).1
    have ltw := (List.getElem?_eq_some_iff.1 how).1
    by_cases h1 : isFrom v = true <;> by_cases h2 : isFrom w = true
    · obtain ⟨n, hn⟩ := moved v hv h1
      obtain ⟨k, hk⟩ := moved w hw h2
      rw [Img.image (.inl ⟨h1, hn⟩), Img.image (.inl ⟨h2, hk⟩)] at e
      subst e
      exact I.inj v w n h1 h2 hn hk
    · obtain ⟨n, hn⟩ := moved v hv h1
      obtain ⟨_, _, h3, _⟩ := copies v n ov h1 hn hov
      rw [Img.image (.inl ⟨h1, hn⟩), Img.image (.inr ⟨by simpa using h2, rfl⟩)] at e
      exact absurd (e ▸ ltw) (not_lt.2 h3)
    · obtain ⟨n, hn⟩ := moved w hw h2
      obtain ⟨_, _, h3, _⟩ := copies w n ow h2 hn how
      rw [Img.image (.inl ⟨h2, hn⟩), Img.image (.inr ⟨by simpa using h1, rfl⟩)] at e
      exact absurd (e ▸ ltv) (not_lt.2 h3)
    · rwa [Img.image (.inr ⟨by simpa using h1, rfl⟩), Img.image (.inr ⟨by simpa using h2, rfl⟩)] at e
  · intro n o e
    by_cases hf : isFrom n = true
    · rw [release_get] at e
      obtain ⟨c', _, h2⟩ := Option.map_eq_some_iff.1 e
      simp [hf] at h2
    · have hf : isFrom n = false := by simpa using hf
      rw [release_keep hf] at e
      have lt := (List.getElem?_eq_some_iff.1 e).1
      by_cases h0 : n < m0.length
      · refine ⟨n, ?_, Img.image (.inr ⟨hf, rfl⟩)⟩
        by_cases hs : n ∈ S
        · obtain ⟨c, c', h1, h2, h3⟩ := I.old n h0 hf (.inl hs)
          rw [e] at h2
          cases Option.some.inj h2
          cases h3 with
          | obj g => exact .kept hf (.here h1)
        · have e' := I.todo n h0 hf (by
            rintro (hh | ⟨hh, _⟩)
            · exact hs hh
            · omega)
          exact .kept hf (.here (e'.symm.trans e))
      · obtain ⟨v, o, g1, g2, g3, g4, _⟩ := I.new n (by omega) lt
        exact ⟨v, g4, Img.image (.inl ⟨g1, g3⟩)⟩
  · intro v n hv hn
    rcases I.evac v hv with h | ⟨n', o, h1, h2, h3, h4⟩
    · rw [hn] at h; exact absurd h.symm (wf.fresh v n)
    · exact (copies v n o hv hn h1).1

/-- A whole collection: roots, then the cells of `S`, then the copies. -/
theorem collect (wf : WF isFrom m0 roots S) (fuel : Nat) (hf : m0.length < fuel) :
    ∃ m1 roots' m2 m3, Gc.updList isFrom m0 roots = some (m1, roots') ∧ Gc.scanList isFrom m1 S = some m2 ∧
      Gc.cheney isFrom fuel m0.length m2 = some m3 ∧ Finished isFrom m0 roots roots' m3 ∧ Keep isFrom m1 m3 ∧
      Inv isFrom m0 roots (fun _ => False) m1 ∧ List.Forall₂ (Good isFrom m0 m1) roots roots' ∧
      Inv isFrom m0 roots (fun x => x ∈ S ∨ m0.length ≤ x ∧ x < m3.length) m3 ∧ List.Forall₂ (Good isFrom m0 m3) roots roots' := by
  obtain ⟨m1, roots', e1, I1, K1, g1, _⟩ := (Inv.init wf).updList wf roots (fun a ha => by
    obtain ⟨v, hv⟩ := wf.roots a ha
    exact ⟨v, hv, .root ha hv⟩)
  obtain ⟨m2, e2, I2, K2⟩ := I1.scanList wf S wf.store
  have : (fun x => False ∨ x ∈ S) = fun x => x ∈ S ∨ m0.length ≤ x ∧ x < m0.length := by
    funext x
    refine propext ⟨fun h => h.elim False.elim .inl, fun h => .inr (h.elim id fun h => absurd h.2 (not_lt.2 h.1))⟩
  rw [this] at I2
  obtain ⟨m3, k', e3, e4, I3, K3⟩ := Inv.cheney wf fuel m0.length I2 (le_refl _) I2.len (by omega)
  subst e4
  exact ⟨m1, roots', m2, m3, e1, e2, e3, I3.finish wf (g1.imp fun _ _ g => g.mono (K2.trans K3)), K2.trans K3, I1, g1, I3,
    g1.imp fun _ _ g => g.mono (K2.trans K3)⟩

end

end Potion.Gc
