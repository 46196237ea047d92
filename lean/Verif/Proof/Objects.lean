import Verif.Model.Objects
import Verif.Spec.Objects
import Mathlib.Data.List.Induction
import Mathlib.Tactic.IntervalCases
/-! Invariants of the class model over histories. -/
namespace Potion.Obj

/-- The history of `boot`. -/
def bootEvents : List (Event Cl) :=
  builtins.map (fun tp => .made (bootAddr tp.1) (bootAddr tp.1 + 1) (tp.2.map bootAddr) []) ++
  [.defined mixin lookupName .lookup]

/-- The states a program can bring the classes to, with what it did: it makes classes and defines methods. -/
inductive Runs : List (Event Cl) → St → Prop
  | boot : Runs bootEvents boot
  | cls {h s self ivars q s' v mt} (par : Ptr) : Runs h s → mkClass s self ivars = some (q, s') →
      par = self.getD (bootAddr TOBJECT) → s'.objs[q]? = some v → v.metac = some mt →
      Runs (h ++ [.made q mt (some par) (ivars.getD [])]) s'
  | dfn {h s} (p : Ptr) (n : Name) (c : Cl) : Runs h s → p < s.objs.length →
      Runs (h ++ [.defined p n c]) (defMethod s p n c)

theorem mem_putAll (own pv : List Name) (x : Name) : x ∈ putAll own pv ↔ x ∈ own ∨ x ∈ pv := by
  induction pv generalizing own with
  | nil => simp [putAll]
  | cons v vs ih =>
    unfold putAll
    rw [ih]
    split <;> simp_all <;> grind

/-- What `mkClass` does to the state. -/
theorem mkClass_eq {s self ivars q s'} (h : mkClass s self ivars = some (q, s')) :
    ∃ par parent, (match self with | none => s.vts TOBJECT | some p => some p) = some par ∧
      s.objs[par]? = some parent ∧ q = s.objs.length ∧ ∃ iv : Option (List Name),
      (iv = match parent.ivars with
        | some pv => some (putAll (ivars.getD []) pv)
        | none => ivars) ∧
      s' = { objs := s.objs ++ [
               { type := s.size, parent := some parent.type, ivars := iv, ivlen := (iv.getD []).length,
                 methods := fun _ => none, metac := some (s.objs.length + 1) },
               { type := s.size + 1, parent := some TVTABLE, ivars := none, ivlen := 0,
                 methods := fun _ => none, metac := none }],
             vts := Function.update (Function.update s.vts s.size (some s.objs.length)) (s.size + 1)
               (some (s.objs.length + 1)),
             size := s.size + 2 } := by
  unfold mkClass at h
  split at h
  · simp at h
  · rename_i par hpar
    split at h
    · simp at h
    · rename_i parent hp
      refine ⟨par, parent, hpar, hp, ?_⟩
      unfold typeNew addMetaclass at h
      simp only [List.length_append, List.length_cons, List.length_nil] at h
      have m : ∀ (x : Vt) f, (s.objs ++ [x]).modify s.objs.length f = s.objs ++ [f x] := by
        intro x f
        apply List.ext_getElem?
        intro i
        rw [List.getElem?_modify]
        rcases Nat.lt_trichotomy i s.objs.length with h | h | h
        · grind
        · subst h; simp
        · rw [List.getElem?_eq_none (by simp; omega), List.getElem?_eq_none (by simp; omega)]; simp
      have m2 : ∀ (x y : Vt) f, (s.objs ++ [x] ++ [y]).modify s.objs.length f = s.objs ++ [f x, y] := by
        intro x y f
        apply List.ext_getElem?
        intro i
        rw [List.getElem?_modify]
        rcases Nat.lt_trichotomy i s.objs.length with h | h | h
        · grind
        · subst h; simp
        · have h' : s.objs.length ≤ i := Nat.le_of_lt h
          simp only [List.append_assoc, List.cons_append, List.nil_append, Nat.ne_of_lt h, if_false, id_map]
          rw [List.getElem?_append_right h', List.getElem?_append_right h']
          rcases hk : i - s.objs.length with _ | k
          · omega
          · simp
      rw [m] at h
      simp only [setIvars, m2] at h
      split at h
      · rename_i pv hpv
        obtain ⟨rfl, rfl⟩ := by simpa using h
        exact ⟨rfl, some (putAll (ivars.getD []) pv), by simp [hpv], rfl⟩
      · rename_i hpv
        split at h
        · rename_i iv
          obtain ⟨rfl, rfl⟩ := by simpa using h
          exact ⟨rfl, some iv, by simp [hpv], rfl⟩
        · obtain ⟨rfl, rfl⟩ := by simpa using h
          exact ⟨rfl, none, by simp [hpv], by simp⟩

/-- The classes an event speaks about. -/
def Event.ids {M : Type} : Event M → List Nat
  | .made c m _ _ => [c, m]
  | .defined c _ _ => [c]

structure Inv (h : List (Event Cl)) (s : St) : Prop where
  big : 2 < s.objs.length
  mix : s.vts TVTABLE = some mixin
  obj : s.vts TOBJECT = some (bootAddr TOBJECT)
  typ : ∀ p v, s.objs[p]? = some v → v.type < s.size ∧ s.vts v.type = some p
  vts : ∀ t p : Nat, s.vts t = some p → p < s.objs.length ∧ t < s.size
  vty : ∀ (t p : Nat) (v : Vt), s.vts t = some p → s.objs[p]? = some v → v.type = t
  par : ∀ p v, s.objs[p]? = some v → v.parent.bind s.vts = parentIn mixin h p ∧ (∀ t, v.parent = some t → (s.vts t).isSome)
  meth : ∀ p v, s.objs[p]? = some v → ∀ n, v.methods n = methodIn h p n
  miv : ∀ w : Vt, s.objs[mixin]? = some w → w.ivars = none
  met : ∀ (p : Nat) (v : Vt) (m : Nat), s.objs[p]? = some v → v.metac = some m → ∃ w, s.objs[m]? = some w ∧ w.metac = none ∧
    parentIn mixin h m = some mixin
  ids : ∀ e ∈ h, ∀ p ∈ e.ids, p < s.objs.length
  chain : ∀ p, p < s.objs.length → ∃ l, Chain mixin h p l
  iv : ∀ p v, s.objs[p]? = some v → v.ivlen = (v.ivars.getD []).length ∧
    ∀ l, Chain mixin h p l → ∀ x, x ∈ v.ivars.getD [] ↔ HasVar h l x


theorem parentIn_append_ne (m : Nat) (h : List (Event Cl)) (q mt x : Nat) (p own) (h1 : x ≠ q) (h2 : x ≠ mt) :
    parentIn m (h ++ [.made q mt p own]) x = parentIn m h x := by
  induction h with
  | nil => simp [parentIn, h1, h2]
  | cons e h ih => cases e <;> simp [parentIn, ih]

theorem parentIn_append_new (m : Nat) (h : List (Event Cl)) (e : Event Cl) (x : Nat) (hx : ∀ e ∈ h, x ∉ e.ids) :
    parentIn m (h ++ [e]) x = parentIn m [e] x := by
  induction h with
  | nil => rfl
  | cons a h ih =>
    have ha := hx a (by simp)
    have := ih (fun e he => hx e (by simp [he]))
    cases a <;> simp [Event.ids] at ha <;> simp [parentIn, this, ha]

theorem parentIn_append_def (m : Nat) (h : List (Event Cl)) (c n : Nat) (f : Cl) (x : Nat) :
    parentIn m (h ++ [.defined c n f]) x = parentIn m h x := by
  induction h with
  | nil => simp [parentIn]
  | cons e h ih => cases e <;> simp [parentIn, ih]

theorem methodIn_append (h : List (Event Cl)) (e : Event Cl) (x n : Nat) :
    methodIn (h ++ [e]) x n = match e with
      | .defined c k f => if c = x ∧ k = n then some f else methodIn h x n
      | _ => methodIn h x n := by
  simp only [methodIn, List.foldl_append, List.foldl_cons, List.foldl_nil]
  cases e <;> rfl

theorem methodIn_new (h : List (Event Cl)) (x n : Nat) (hx : ∀ e ∈ h, x ∉ e.ids) : methodIn h x n = none := by
  induction h using List.reverseRecOn with
  | nil => rfl
  | append_singleton h e ih =>
    rw [methodIn_append]
    have h1 := ih (fun e he => hx e (by simp [he]))
    have h2 := hx e (by simp)
    cases e with
    | made => exact h1
    | defined => simp [Event.ids] at h2; simp [h1, Ne.symm h2]

/-- A chain is determined by its class. -/
theorem Chain.unique {m : Nat} {h : List (Event Cl)} {c l l'} (a : Chain m h c l) (b : Chain m h c l') : l = l' := by
  induction a generalizing l' with
  | last e => cases b with
    | last => rfl
    | cons e' => rw [e] at e'; simp at e'
  | cons e _ ih => cases b with
    | last e' => rw [e] at e'; simp at e'
    | cons e' b' =>
      rw [e] at e'; obtain rfl := by simpa using e'
      rw [ih b']

theorem Chain.mono {m : Nat} {h h' : List (Event Cl)} {c l} (a : Chain m h c l) (S : Nat → Prop) (hc : S c)
    (hS : ∀ x y, S x → parentIn m h x = some y → S y) (hp : ∀ x, S x → parentIn m h' x = parentIn m h x) :
    Chain m h' c l := by
  induction a with
  | last e => exact .last (by rw [hp _ hc, e])
  | cons e _ ih => exact .cons (by rw [hp _ hc, e]) (ih (hS _ _ hc e))

theorem Chain.mem {m : Nat} {h : List (Event Cl)} {c l} (a : Chain m h c l) (S : Nat → Prop) (hc : S c)
    (hS : ∀ x y, S x → parentIn m h x = some y → S y) : ∀ x ∈ l, S x := by
  induction a with
  | last e => simpa using hc
  | cons e _ ih =>
    intro x hx
    rcases List.mem_cons.1 hx with rfl | hx
    · exact hc
    · exact ih (hS _ _ hc e) x hx

theorem Inv.step {h s} (i : Inv h s) {x y} (hx : x < s.objs.length) (e : parentIn mixin h x = some y) :
    y < s.objs.length := by
  have h1 := (i.par x _ (List.getElem?_eq_getElem hx)).1
  rw [e] at h1
  rcases hv : s.objs[x].parent with _ | t
  · rw [hv] at h1; simp at h1
  · rw [hv] at h1
    exact (i.vts t y h1).1

theorem Inv.fresh {h s} (i : Inv h s) (x : Nat) (hx : s.objs.length ≤ x) : ∀ e ∈ h, x ∉ e.ids :=
  fun e he hm => absurd (i.ids e he x hm) (by omega)

theorem hasVar_def (h : List (Event Cl)) (c n f l x) : HasVar (h ++ [.defined c n f]) l x ↔ HasVar h l x := by
  simp [HasVar]

theorem inv_dfn {h s} (i : Inv h s) (p : Ptr) (n : Name) (c : Cl) (hp : p < s.objs.length) :
    Inv (h ++ [.defined p n c]) (defMethod s p n c) := by
  have len : (defMethod s p n c).objs.length = s.objs.length := by simp [defMethod]
  have get : ∀ {q v}, (defMethod s p n c).objs[q]? = some v → ∃ w, s.objs[q]? = some w ∧ v.type = w.type ∧
      v.parent = w.parent ∧ v.ivars = w.ivars ∧ v.ivlen = w.ivlen ∧ v.metac = w.metac ∧
      v.methods = if p = q then Function.update w.methods n (some c) else w.methods := by
    intro q v hv
    simp only [defMethod, List.getElem?_modify] at hv
    rcases hw : s.objs[q]? with _ | w
    · rw [hw] at hv; simp at hv
    · rw [hw] at hv
      refine ⟨w, rfl, ?_⟩
      obtain rfl := by simpa using hv
      split <;> simp_all
  have ch : ∀ q l, Chain mixin (h ++ [.defined p n c]) q l ↔ Chain mixin h q l := fun q l =>
    ⟨fun a => a.mono (fun _ => True) trivial (fun _ _ _ _ => trivial) (fun x _ => (parentIn_append_def ..).symm),
      fun a => a.mono (fun _ => True) trivial (fun _ _ _ _ => trivial) (fun x _ => parentIn_append_def ..)⟩
  constructor
  · rw [len]; exact i.big
  · exact i.mix
  · exact i.obj
  · intro q v hv
    obtain ⟨w, hw, e1, _⟩ := get hv
    rw [e1]; exact i.typ q w hw
  · intro t q; rw [len]; exact i.vts t q
  · intro t q v ht hv
    obtain ⟨w, hw, e1, _⟩ := get hv
    rw [e1]; exact i.vty t q w ht hw
  · intro q v hv
    obtain ⟨w, hw, _, e2, _⟩ := get hv
    rw [e2, parentIn_append_def]; exact i.par q w hw
  · intro q v hv k
    obtain ⟨w, hw, _, _, _, _, _, e⟩ := get hv
    rw [e, methodIn_append]
    have := i.meth q w hw k
    split
    · rename_i e1; subst e1
      by_cases hk : n = k
      · subst hk; simp
      · rw [Function.update_of_ne (Ne.symm hk)]; simp [hk, this]
    · rename_i e1; simp [e1, this]
  · intro v hv
    obtain ⟨w, hw, _, _, e3, _⟩ := get hv
    rw [e3]; exact i.miv w hw
  · intro q v m hv hm
    obtain ⟨w, hw, _, _, _, _, e, _⟩ := get hv
    obtain ⟨w', hw', hn, hpp⟩ := i.met q w m hw (e ▸ hm)
    have hl : m < (defMethod s p n c).objs.length := by rw [len]; exact (List.getElem?_eq_some_iff.1 hw').1
    refine ⟨_, List.getElem?_eq_getElem hl, ?_, by rw [parentIn_append_def]; exact hpp⟩
    obtain ⟨w2, hw2, _, _, _, _, e2, _⟩ := get (List.getElem?_eq_getElem hl)
    rw [e2]; rw [hw'] at hw2; obtain rfl := by simpa using hw2
    exact hn
  · intro e he x hx
    rw [len]
    rcases List.mem_append.1 he with he | he
    · exact i.ids e he x hx
    · obtain rfl := by simpa using he
      simp [Event.ids] at hx; subst hx; exact hp
  · intro q hq
    rw [len] at hq
    obtain ⟨l, hl⟩ := i.chain q hq
    exact ⟨l, (ch q l).2 hl⟩
  · intro q v hv
    obtain ⟨w, hw, _, _, e3, e4, _⟩ := get hv
    rw [e3, e4]
    refine ⟨(i.iv q w hw).1, fun l hl x => ?_⟩
    rw [hasVar_def]
    exact (i.iv q w hw).2 l ((ch q l).1 hl) x

theorem hasVar_cons (h : List (Event Cl)) (c : Nat) (l : List Nat) (x : Nat) :
    HasVar h (c :: l) x ↔ (∃ mt p own, Event.made c mt p own ∈ h ∧ x ∈ own) ∨ HasVar h l x := by
  simp [HasVar]

theorem hasVar_made_ne (h : List (Event Cl)) (q mt p own) (l : List Nat) (x : Nat) (hq : q ∉ l) :
    HasVar (h ++ [.made q mt p own]) l x ↔ HasVar h l x := by
  constructor
  · rintro ⟨c, hc, mt', p', own', hm, hx⟩
    rcases List.mem_append.1 hm with hm | hm
    · exact ⟨c, hc, mt', p', own', hm, hx⟩
    · simp at hm; exact absurd (hm.1 ▸ hc) hq
  · rintro ⟨c, hc, mt', p', own', hm, hx⟩
    exact ⟨c, hc, mt', p', own', by simp [hm], hx⟩

theorem inv_cls {h s self ivars q s' v mt} (par : Ptr) (i : Inv h s) (hc : mkClass s self ivars = some (q, s'))
    (hpar : par = self.getD (bootAddr TOBJECT)) (hv : s'.objs[q]? = some v) (hm : v.metac = some mt) :
    Inv (h ++ [.made q mt (some par) (ivars.getD [])]) s' := by
  obtain ⟨par', parent, e1, e2, rfl, iv, e3, rfl⟩ := mkClass_eq hc
  have hpp : par' = par := by
    rw [hpar]
    cases self with
    | none => simp [i.obj] at e1; simp [e1]
    | some p => simp at e1; simp [e1]
  subst hpp
  have hmt : mt = s.objs.length + 1 := by
    simp at hv; subst hv; simpa using hm.symm
  subst hmt
  clear hm hv hpar hc
  have hl : par' < s.objs.length := (List.getElem?_eq_some_iff.1 e2).1
  obtain ⟨t1, t2⟩ := i.typ par' parent e2
  have ppar : ∀ x, x < s.objs.length → parentIn mixin (h ++ [.made s.objs.length (s.objs.length + 1) (some par')
      (ivars.getD [])]) x = parentIn mixin h x :=
    fun x hx => parentIn_append_ne _ _ _ _ _ _ _ (by omega) (by omega)
  have pq : parentIn mixin (h ++ [.made s.objs.length (s.objs.length + 1) (some par') (ivars.getD [])])
      s.objs.length = some par' := by
    rw [parentIn_append_new _ _ _ _ (i.fresh _ (by omega))]; simp [parentIn]
  have pm : parentIn mixin (h ++ [.made s.objs.length (s.objs.length + 1) (some par') (ivars.getD [])])
      (s.objs.length + 1) = some mixin := by
    rw [parentIn_append_new _ _ _ _ (i.fresh _ (by omega))]; simp [parentIn]
  have ch : ∀ x l, x < s.objs.length → Chain mixin h x l → Chain mixin (h ++ [.made s.objs.length (s.objs.length + 1)
      (some par') (ivars.getD [])]) x l := fun x l hx a =>
    a.mono (· < s.objs.length) hx (fun x y hx => i.step hx) ppar
  have vold : ∀ t, t < s.size → Function.update (Function.update s.vts s.size (some s.objs.length)) (s.size + 1)
      (some (s.objs.length + 1)) t = s.vts t := fun t ht => by
    rw [Function.update_of_ne (by omega), Function.update_of_ne (by omega)]
  have cases3 : ∀ (P : Nat → Vt → Prop), (∀ p v, s.objs[p]? = some v → P p v) →
      P s.objs.length ⟨s.size, some parent.type, iv, (iv.getD []).length, fun _ => none, some (s.objs.length + 1)⟩ →
      P (s.objs.length + 1) ⟨s.size + 1, some TVTABLE, none, 0, fun _ => none, none⟩ →
      ∀ p v, (s.objs ++ [⟨s.size, some parent.type, iv, (iv.getD []).length, fun _ => none, some (s.objs.length + 1)⟩,
        ⟨s.size + 1, some TVTABLE, none, 0, fun _ => none, none⟩])[p]? = some v → P p v := by
    intro P a b c p v hv
    rcases Nat.lt_or_ge p s.objs.length with hp | hp
    · rw [List.getElem?_append_left hp] at hv; exact a p v hv
    · rw [List.getElem?_append_right hp] at hv
      rcases hk : p - s.objs.length with _ | _ | k
      · rw [hk] at hv; simp at hv; subst hv
        obtain rfl : p = s.objs.length := by omega
        exact b
      · rw [hk] at hv; simp at hv; subst hv
        obtain rfl : p = s.objs.length + 1 := by omega
        exact c
      · rw [hk] at hv; simp at hv
  obtain ⟨mv, hmv⟩ : ∃ w, s.objs[mixin]? = some w := ⟨_, List.getElem?_eq_getElem (i.vts _ _ i.mix).1⟩
  constructor
  · have := i.big; simp; omega
  · exact (vold _ (i.vts _ _ i.mix).2).trans i.mix
  · exact (vold _ (i.vts _ _ i.obj).2).trans i.obj
  · refine cases3 _ ?_ ?_ ?_
    · intro p v hv
      obtain ⟨a, b⟩ := i.typ p v hv
      exact ⟨by simp; omega, by rw [← b]; exact vold _ a⟩
    · exact ⟨by simp, by simp [Function.update]⟩
    · exact ⟨by simp, by simp⟩
  · intro t p hp
    simp only [Function.update_apply] at hp
    have e : ∀ a b : Vt, (s.objs ++ [a, b]).length = s.objs.length + 2 := fun a b => by simp
    refine (?_ : p < (s.objs ++ [_, _]).length ∧ t < s.size + 2)
    rw [e]
    split at hp
    · obtain rfl := Option.some.inj hp; omega
    · split at hp
      · obtain rfl := Option.some.inj hp; omega
      · have := i.vts t p hp; omega
  · intro t p v ht hv
    simp only [Function.update_apply] at ht
    revert ht; revert hv; revert p v
    refine cases3 _ ?_ ?_ ?_
    · intro p v hv ht
      have hp := (List.getElem?_eq_some_iff.1 hv).1
      split at ht
      · have e : @Eq Nat _ _ := Option.some.inj ht; omega
      · split at ht
        · have e : @Eq Nat _ _ := Option.some.inj ht; omega
        · exact i.vty t p v ht hv
    · intro ht
      split at ht
      · have e : @Eq Nat _ _ := Option.some.inj ht; omega
      · split at ht
        · simp_all
        · have := (i.vts t _ ht).1; omega
    · intro ht
      split at ht
      · simp_all
      · split at ht
        · have e : @Eq Nat _ _ := Option.some.inj ht; omega
        · have := (i.vts t _ ht).1; omega
  · refine cases3 _ ?_ ?_ ?_
    · intro p v hv
      have hp := (List.getElem?_eq_some_iff.1 hv).1
      obtain ⟨a, b⟩ := i.par p v hv
      rw [ppar p hp, ← a]
      constructor
      · cases hvp : v.parent with
        | none => rfl
        | some t =>
          obtain ⟨x, hx⟩ := Option.isSome_iff_exists.1 (b t hvp)
          exact vold _ (i.vts _ _ hx).2
      · intro t ht
        obtain ⟨x, hx⟩ := Option.isSome_iff_exists.1 (b t ht)
        exact (congrArg _ ((vold _ (i.vts _ _ hx).2).trans hx)).trans rfl
    · rw [pq]
      refine ⟨?_, fun t ht => ?_⟩
      · rw [← t2]; exact vold _ t1
      · simp at ht; subst ht; exact (congrArg _ ((vold _ t1).trans t2)).trans rfl
    · rw [pm]
      refine ⟨?_, fun t ht => ?_⟩
      · rw [← i.mix]; exact vold _ (i.vts _ _ i.mix).2
      · simp at ht; subst ht; exact (congrArg _ ((vold _ (i.vts _ _ i.mix).2).trans i.mix)).trans rfl
  · refine cases3 _ ?_ ?_ ?_
    · intro p v hv n; rw [methodIn_append]; exact i.meth p v hv n
    · intro n; rw [methodIn_append]; exact (methodIn_new _ _ _ (i.fresh _ (by omega))).symm
    · intro n; rw [methodIn_append]; exact (methodIn_new _ _ _ (i.fresh _ (by omega))).symm
  · intro w hw
    rw [List.getElem?_append_left (i.vts _ _ i.mix).1] at hw
    exact i.miv w hw
  · intro p v m hv
    revert m; revert hv; revert p v
    refine cases3 _ ?_ ?_ ?_
    · intro p v hv m hm
      obtain ⟨w, hw, a, b⟩ := i.met p v m hv hm
      have hl := (List.getElem?_eq_some_iff.1 hw).1
      exact ⟨w, by rw [List.getElem?_append_left hl]; exact hw, a, by rw [ppar m hl]; exact b⟩
    · intro m hm
      simp at hm; subst hm
      exact ⟨⟨s.size + 1, some TVTABLE, none, 0, fun _ => none, none⟩, by simp, rfl, pm⟩
    · intro m hm; simp at hm
  · intro e he x hx
    simp only [List.length_append, List.length_cons, List.length_nil]
    rcases List.mem_append.1 he with he | he
    · have := i.ids e he x hx; omega
    · obtain rfl := by simpa using he
      simp [Event.ids] at hx; omega
  · intro p hp
    simp only [List.length_append, List.length_cons, List.length_nil] at hp
    rcases Nat.lt_or_ge p s.objs.length with hlt | hge
    · obtain ⟨l, hl⟩ := i.chain p hlt
      exact ⟨l, ch p l hlt hl⟩
    · obtain rfl | rfl : p = s.objs.length ∨ p = s.objs.length + 1 := by omega
      · obtain ⟨l, hl⟩ := i.chain par' hl
        exact ⟨_, .cons pq (ch _ _ ‹_› hl)⟩
      · obtain ⟨l, hl⟩ := i.chain mixin (i.vts _ _ i.mix).1
        exact ⟨_, .cons pm (ch _ _ (i.vts _ _ i.mix).1 hl)⟩
  · have hlt : ∀ {x l}, x < s.objs.length → Chain mixin h x l → ∀ y ∈ l, y < s.objs.length :=
      fun hx a => a.mem (· < s.objs.length) hx (fun x y hx => i.step hx)
    have old : ∀ {p v l}, s.objs[p]? = some v → Chain mixin (h ++ [.made s.objs.length (s.objs.length + 1) (some par')
        (ivars.getD [])]) p l → ∀ x, x ∈ v.ivars.getD [] ↔ HasVar (h ++ [.made s.objs.length (s.objs.length + 1)
        (some par') (ivars.getD [])]) l x := by
      intro p v l hv hc x
      have hp := (List.getElem?_eq_some_iff.1 hv).1
      obtain ⟨l', hl'⟩ := i.chain p hp
      obtain rfl := (ch _ _ hp hl').unique hc
      rw [hasVar_made_ne _ _ _ _ _ _ _ (fun hm => absurd (hlt hp hl' _ hm) (by omega))]
      exact (i.iv p v hv).2 _ hl' x
    have nomade : ∀ {y mt p own}, s.objs.length ≤ y → Event.made y mt p own ∉ h := fun hy hm =>
      i.fresh _ hy _ hm (by simp [Event.ids])
    refine cases3 _ ?_ ?_ ?_
    · exact fun p v hv => ⟨(i.iv p v hv).1, fun l hl x => old hv hl x⟩
    · refine ⟨rfl, fun l hl x => ?_⟩
      cases hl with
      | last e => rw [pq] at e; simp at e
      | cons e hl =>
        rw [pq] at e; obtain rfl := by simpa using e
        rw [hasVar_cons, ← old e2 hl x]
        have : (∃ mt p own, Event.made s.objs.length mt p own ∈ h ++ [.made s.objs.length (s.objs.length + 1) (some par')
            (ivars.getD [])] ∧ x ∈ own) ↔ x ∈ ivars.getD [] := by
          constructor
          · rintro ⟨mt, p, own, hm, hx⟩
            rcases List.mem_append.1 hm with hm | hm
            · exact absurd hm (nomade (by omega))
            · simp at hm; rw [← hm.2.2]; exact hx
          · intro hx; exact ⟨_, _, _, List.mem_append_right _ (List.mem_singleton.2 rfl), hx⟩
        rw [this, e3]
        cases hpv : parent.ivars with
        | none => simp
        | some pv => simp [mem_putAll]
    · refine ⟨rfl, fun l hl x => ?_⟩
      cases hl with
      | last e => rw [pm] at e; simp at e
      | cons e hl =>
        rw [pm] at e; obtain rfl := by simpa using e
        rw [hasVar_cons]
        have : ¬ ∃ mt p own, Event.made (s.objs.length + 1) mt p own ∈ h ++ [.made s.objs.length (s.objs.length + 1)
            (some par') (ivars.getD [])] ∧ x ∈ own := by
          rintro ⟨mt, p, own, hm, hx⟩
          rcases List.mem_append.1 hm with hm | hm
          · exact absurd hm (nomade (by omega))
          · simp at hm
        have hmix := old hmv hl x
        rw [i.miv mv hmv] at hmix
        simp only [this, false_or]
        exact hmix


/-! The initial state. -/
theorem boot_len : boot.objs.length = 42 := by decide +kernel
theorem boot_size : boot.size = 45 := by decide +kernel

theorem typeNew_vts (s : St) (t : Nat) (x : Option Vt) (h : ∀ t p : Nat, s.vts t = some p → p < s.objs.length ∧ t < s.size)
    (ht : t < s.size) : (∀ t' p : Nat, (typeNew s t x).2.vts t' = some p → p < (typeNew s t x).2.objs.length ∧
      t' < (typeNew s t x).2.size) ∧ s.size ≤ (typeNew s t x).2.size := by
  refine ⟨?_, by simp [typeNew, addMetaclass]⟩
  intro t' p hp
  simp only [typeNew, addMetaclass, Function.update_apply, List.length_append, List.length_cons, List.length_nil,
    List.length_modify] at hp ⊢
  split at hp
  · obtain rfl := Option.some.inj hp; omega
  · split at hp
    · obtain rfl := Option.some.inj hp; omega
    · have := h t' p hp; omega

theorem bootTypes_vts (l : List (Nat × Option Nat)) (s : St)
    (h : ∀ t p : Nat, s.vts t = some p → p < s.objs.length ∧ t < s.size) (hl : ∀ x ∈ l, x.1 < s.size) :
    ∀ t p : Nat, (bootTypes l s).vts t = some p → p < (bootTypes l s).objs.length ∧ t < (bootTypes l s).size := by
  induction l generalizing s with
  | nil => exact h
  | cons a l ih =>
    obtain ⟨t, p⟩ := a
    have ht : t < s.size := hl (t, p) (by simp)
    cases p with
    | none =>
      have := typeNew_vts s t none h ht
      exact ih _ this.1 (fun x hx => Nat.lt_of_lt_of_le (hl x (by simp [hx])) this.2)
    | some p =>
      have := typeNew_vts s t (s.vtable p) h ht
      exact ih _ this.1 (fun x hx => Nat.lt_of_lt_of_le (hl x (by simp [hx])) this.2)

theorem boot_vts (t p : Nat) (h : boot.vts t = some p) : p < boot.objs.length ∧ t < boot.size := by
  have e : boot = defMethod (bootTypes builtins St.empty) 2 lookupName .lookup := rfl
  rw [e] at h ⊢
  simp only [defMethod, List.length_modify] at h ⊢
  exact bootTypes_vts builtins St.empty (by simp [St.empty]) (by decide) t p h

theorem boot_get {p : Nat} {v : Vt} (h : boot.objs[p]? = some v) : p < 42 := by
  have := (List.getElem?_eq_some_iff.1 h).1
  rwa [boot_len] at this

theorem boot_typ : ∀ p < 42, ∀ v ∈ boot.objs[p]?, v.type < 45 ∧ boot.vts v.type = some p := by
  decide +kernel
theorem boot_vty : ∀ t < 45, ∀ p ∈ boot.vts t, ∀ v ∈ boot.objs[p]?, v.type = t := by decide +kernel
theorem boot_par : ∀ p < 42, ∀ v ∈ boot.objs[p]?, v.parent.bind boot.vts = parentIn mixin bootEvents p ∧
    (∀ t ∈ v.parent, (boot.vts t).isSome = true) := by decide +kernel
theorem boot_met : ∀ p < 42, ∀ v ∈ boot.objs[p]?, ∀ m ∈ v.metac, m < 42 ∧
    (∀ w ∈ boot.objs[m]?, w.metac = none ∧ parentIn mixin bootEvents m = some mixin) := by decide +kernel
theorem boot_chain : ∀ p < 42, parentIn mixin bootEvents p ∈ [none, some 0, some 2, some 4, some 6] := by decide +kernel
theorem boot_iv : ∀ p < 42, ∀ v ∈ boot.objs[p]?, v.ivars = none ∧ v.ivlen = 0 := by decide +kernel

theorem boot_meth : ∀ p < 42, ∀ v, boot.objs[p]? = some v → v.methods =
    if p = 2 then Function.update (fun _ => none) lookupName (some .lookup) else fun _ => none := by
  intro p hp v hv
  have : ∀ k : Nat, k < 42 → ∃ w, boot.objs[k]? = some w ∧ w.methods =
      if k = 2 then Function.update (fun _ => none) lookupName (some .lookup) else fun _ => none := by
    intro k hk
    interval_cases k <;> exact ⟨_, rfl, rfl⟩
  obtain ⟨w, hw, e⟩ := this p hp
  rw [hv] at hw; obtain rfl := by simpa using hw
  exact e

theorem methodIn_made (l : List (Event Cl)) (h : ∀ e ∈ l, ∃ c m p o, e = .made c m p o) (x n : Nat) :
    methodIn l x n = none := by
  induction l using List.reverseRecOn with
  | nil => rfl
  | append_singleton l e ih =>
    rw [methodIn_append]
    obtain ⟨c, m, p, o, rfl⟩ := h e (by simp)
    exact ih (fun e he => h e (by simp [he]))

theorem inv_boot : Inv bootEvents boot := by
  have tr : ∀ {P : Vt → Prop} {p : Nat} {v : Vt}, boot.objs[p]? = some v → (∀ v ∈ boot.objs[p]?, P v) → P v :=
    fun hv h => h _ hv
  constructor
  · rw [boot_len]; omega
  · rfl
  · rfl
  · intro p v hv
    have := tr hv (boot_typ p (boot_get hv))
    rw [boot_size]; exact this
  · exact boot_vts
  · intro t p v ht hv
    have := (boot_vts t p ht).2
    rw [boot_size] at this
    exact boot_vty t this p ht v hv
  · intro p v hv
    have := tr hv (boot_par p (boot_get hv))
    exact ⟨this.1, fun t ht => this.2 t ht⟩
  · intro p v hv n
    rw [boot_meth p (boot_get hv) v hv, bootEvents, methodIn_append]
    simp only []
    rw [methodIn_made _ (by simp only [List.mem_map]; rintro _ ⟨a, _, rfl⟩; exact ⟨_, _, _, _, rfl⟩)]
    by_cases hp : p = 2
    · subst hp
      by_cases hn : n = lookupName
      · subst hn; simp
      · simp [Function.update_of_ne hn, Ne.symm hn]
    · simp [hp, Ne.symm hp]
  · intro w hw
    exact (tr hw (boot_iv _ (boot_get hw))).1
  · intro p v m hv hm
    obtain ⟨h1, h2⟩ := tr hv (boot_met p (boot_get hv)) m hm
    rw [← boot_len] at h1
    exact ⟨_, List.getElem?_eq_getElem h1, h2 _ (List.getElem?_eq_getElem h1)⟩
  · have : ∀ e ∈ bootEvents, ∀ p ∈ e.ids, p < 42 := by decide +kernel
    rw [boot_len]; exact this
  · have c0 : Chain mixin bootEvents 0 [0] := .last (by decide +kernel)
    have c2 : Chain mixin bootEvents 2 [2, 0] := .cons (by decide +kernel) c0
    have c4 : Chain mixin bootEvents 4 [4, 0] := .cons (by decide +kernel) c0
    have c6 : Chain mixin bootEvents 6 [6, 4, 0] := .cons (by decide +kernel) c4
    intro p hp
    rw [boot_len] at hp
    have := boot_chain p hp
    simp at this
    rcases this with h | h | h | h | h
    · exact ⟨_, .last h⟩
    · exact ⟨_, .cons h c0⟩
    · exact ⟨_, .cons h c2⟩
    · exact ⟨_, .cons h c4⟩
    · exact ⟨_, .cons h c6⟩
  · intro p v hv
    have := tr hv (boot_iv p (boot_get hv))
    rw [this.1, this.2]
    refine ⟨rfl, fun l _ x => ?_⟩
    simp only [Option.getD_none, List.not_mem_nil, false_iff]
    rintro ⟨c, _, mt, p, own, hm, hx⟩
    have : own = [] := by
      simp [bootEvents] at hm
      obtain ⟨_, _, _, _, _, _, h⟩ := hm
      exact h
    subst this; simp at hx

theorem Runs.inv {h s} (r : Runs h s) : Inv h s := by
  induction r with
  | boot => exact inv_boot
  | cls par _ hc hp hv hm ih => exact inv_cls par ih hc hp hv hm
  | dfn p n c _ hp ih => exact inv_dfn ih p n c hp

end Potion.Obj
