import Verif.Spec.Literal
import Verif.Proof.Send8
import Verif.Proof.Number
/-! Proofs for C78: what the evaluation of an expression that writes a value down leaves in memory. -/
namespace Potion.Send
open Potion Potion.Peg Potion.CompileAll Potion.Spec

mutual
/-- As `Rep`, made of objects from `lo` on. -/
inductive From (lo : Nat) (m : Heap) : Val → Datum → Prop
  | nil : From lo m (.imm PN_NIL) .nil
  | true : From lo m (.imm PN_TRUE) (.bool Bool.true)
  | false : From lo m (.imm PN_FALSE) (.bool Bool.false)
  | int {w i} : Denotes w i → From lo m (.imm w) (.int i)
  | str {s} : From lo m (.str s) (.str s)
  | list {n vs l} : lo ≤ n → m[n]? = some (.list vs) → FromAll lo m vs l → From lo m (.ref n) (.list l)
  | table {n ps l} : lo ≤ n → m[n]? = some (.table ps) → FromPairs lo m ps l → From lo m (.ref n) (.table l)
  | lick {n a b c x y z} : lo ≤ n → m[n]? = some (.lick a b c) → From lo m a x → From lo m b y → From lo m c z → From lo m (.ref n) (.lick x y z)
inductive FromAll (lo : Nat) (m : Heap) : List Val → Data → Prop
  | nil : FromAll lo m [] .nil
  | cons {v vs d l} : From lo m v d → FromAll lo m vs l → FromAll lo m (v :: vs) (.cons d l)
inductive FromPairs (lo : Nat) (m : Heap) : List (Val × Val) → Pairs → Prop
  | nil : FromPairs lo m [] .nil
  | cons {k v ps x d l} : From lo m k x → From lo m v d → FromPairs lo m ps l → FromPairs lo m ((k, v) :: ps) (.cons x d l)
end

mutual
theorem From.rep {lo m v d} : From lo m v d → Rep m v d
  | .nil => .nil
  | .true => .true
  | .false => .false
  | .int h => .int h
  | .str => .str
  | .list _ h h' => .list h (FromAll.rep h')
  | .table _ h h' => .table h (FromPairs.rep h')
  | .lick _ h a b c => .lick h (From.rep a) (From.rep b) (From.rep c)
theorem FromAll.rep {lo m v d} : FromAll lo m v d → RepAll m v d
  | .nil => .nil
  | .cons h h' => .cons (From.rep h) (FromAll.rep h')
theorem FromPairs.rep {lo m v d} : FromPairs lo m v d → RepPairs m v d
  | .nil => .nil
  | .cons k h h' => .cons (From.rep k) (From.rep h) (FromPairs.rep h')
end

/-- The objects from `lo` on are the same. -/
def Keeps (lo : Nat) (m m' : Heap) : Prop := ∀ n c, lo ≤ n → m[n]? = some c → m'[n]? = some c

mutual
theorem From.mono {lo lo' m m' v d} (hl : lo' ≤ lo) (hk : Keeps lo m m') : From lo m v d → From lo' m' v d
  | .nil => .nil
  | .true => .true
  | .false => .false
  | .int h => .int h
  | .str => .str
  | .list h0 h h' => .list (Nat.le_trans hl h0) (hk _ _ h0 h) (FromAll.mono hl hk h')
  | .table h0 h h' => .table (Nat.le_trans hl h0) (hk _ _ h0 h) (FromPairs.mono hl hk h')
  | .lick h0 h a b c => .lick (Nat.le_trans hl h0) (hk _ _ h0 h) (From.mono hl hk a) (From.mono hl hk b) (From.mono hl hk c)
theorem FromAll.mono {lo lo' m m' v d} (hl : lo' ≤ lo) (hk : Keeps lo m m') : FromAll lo m v d → FromAll lo' m' v d
  | .nil => .nil
  | .cons h h' => .cons (From.mono hl hk h) (FromAll.mono hl hk h')
theorem FromPairs.mono {lo lo' m m' v d} (hl : lo' ≤ lo) (hk : Keeps lo m m') : FromPairs lo m v d → FromPairs lo' m' v d
  | .nil => .nil
  | .cons k h h' => .cons (From.mono hl hk k) (From.mono hl hk h) (FromPairs.mono hl hk h')
end

theorem keeps_refl {lo m} : Keeps lo m m := fun _ _ _ h => h
theorem keeps_trans {lo m m' m''} (h : Keeps lo m m') (h' : Keeps lo m' m'') : Keeps lo m m'' := fun n c a b => h' n c a (h n c a b)
theorem keeps_append {lo m l} : Keeps lo m (m ++ l) := fun n c _ h => by
  rw [List.getElem?_append_left (List.getElem?_eq_some_iff.1 h).1, h]
theorem keeps_le {lo lo' m m'} (h : Keeps lo m m') (hl : lo ≤ lo') : Keeps lo' m m' := fun n c a b => h n c (Nat.le_trans hl a) b
theorem keeps_set {lo m p c} (h : p < lo) : Keeps lo m (m.set p c) := fun n c' a b => by
  rw [List.getElem?_set_ne (by omega), b]

/-- The rest of the memory, except the object `p`. -/
def But (p : Nat) (m m' : Heap) : Prop := m.length ≤ m'.length ∧ ∀ n c, n ≠ p → m[n]? = some c → m'[n]? = some c
theorem but_refl {p m} : But p m m := ⟨Nat.le_refl _, fun _ _ _ h => h⟩
theorem but_trans {p m m' m''} (h : But p m m') (h' : But p m' m'') : But p m m'' :=
  ⟨Nat.le_trans h.1 h'.1, fun n c a b => h'.2 n c a (h.2 n c a b)⟩
theorem but_keeps {p m m' lo} (h : But p m m') (hl : p < lo) : Keeps lo m m' := fun n c a b => h.2 n c (by omega) b
theorem keeps_but {p m m'} (h : Keeps 0 m m') (hl : m.length ≤ m'.length) : But p m m' := ⟨hl, fun n c _ b => h n c (Nat.zero_le _) b⟩
theorem but_set {p m c} : But p m (m.set p c) := ⟨by simp, fun n c' a b => by rw [List.getElem?_set_ne (by omega), b]⟩

/-- The value of something written down: everything else stays as it is. -/
def Made (m : Heap) (x : M Val Heap E Val) (d : Datum) : Prop :=
  ∀ var, ∃ v m', x ⟨var, m⟩ = .ok (v, ⟨var, m'⟩) ∧ m.length ≤ m'.length ∧ Keeps 0 m m' ∧ From m.length m' v d

variable {E : Type} (rest : World Val Heap E) (me : Val)

theorem prim_eq {x : Heap → Except E (Val × Heap)} {var : Ident → Val} {m m' : Heap} {v} (h : x m = .ok (v, m')) :
    prim x ⟨var, m⟩ = .ok (v, ⟨var, m'⟩) := by unfold prim; dsimp only; rw [h]
theorem prim__eq {x : Heap → Except E Heap} {var : Ident → Val} {m m' : Heap} (h : x m = .ok m') :
    prim_ x ⟨var, m⟩ = .ok ((), ⟨var, m'⟩) := by unfold prim_; dsimp only; rw [h]

theorem push_eq {m : Heap} {p l v} (h : m[p]? = some (.list l)) :
    (objects rest).push (.ref p) v m = .ok (.ref p, m.set p (.list (l ++ [v]))) := by
  show push rest (.ref p) v m = _
  unfold push; rw [show cellAt m (.ref p) = m[p]? from rfl, h]; rfl
theorem put_eq {m : Heap} {p l k v} (h : m[p]? = some (.table l)) :
    (objects rest).put (.ref p) k v m = .ok (m.set p (.table (putPair k v l))) := by
  show put rest (.ref p) k v m = _
  unfold put; rw [show cellAt m (.ref p) = m[p]? from rfl, h]; rfl
theorem put_eq0 {m : Heap} {p k v} (h : m[p]? = some (.list [])) :
    (objects rest).put (.ref p) k v m = .ok (m.set p (.table [(k, v)])) := by
  show put rest (.ref p) k v m = _
  unfold put; rw [show cellAt m (.ref p) = m[p]? from rfl, h]; rfl

theorem getElem_set_self {m : Heap} {p : Nat} {c c' : Cell} (h : m[p]? = some c) : (m.set p c')[p]? = some c' := by
  rw [List.getElem?_set_self (List.getElem?_eq_some_iff.1 h).1]

theorem imm_made {m : Heap} {v : Val} {d : Datum} (h : From m.length m v d) : Made (E := E) m (pure v) d :=
  fun var => ⟨v, m, rfl, Nat.le_refl _, keeps_refl, h⟩

theorem lit_made {v d} (h : Writes (.chain (.lit v)) d) (m : Heap) (K) : Made (E := E) m (evalC (objects rest) me (.lit v) K) d := by
  have e : evalC (objects rest) me (.lit v) K = pure (constVal v) := by simp only [evalC]; rfl
  rw [e]
  cases h with
  | nil => exact imm_made .nil
  | true => exact imm_made .true
  | false => exact imm_made .false
  | int h => exact imm_made (.int h)
  | str h => exact imm_made .str

/-- Elements are added. -/
def Adds (m : Heap) (p : Nat) (x : M Val Heap E Val) (l : Data) : Prop :=
  ∀ var vs, m[p]? = some (.list vs) → ∃ vs' m', x ⟨var, m⟩ = .ok (.ref p, ⟨var, m'⟩) ∧ But p m m' ∧ m'[p]? = some (.list (vs ++ vs')) ∧ FromAll (p + 1) m' vs' l

theorem made_from_adds {m : Heap} {x : Val → M Val Heap E Val} {l : Data} (h : Adds (m ++ [.list []]) m.length (x (.ref m.length)) l) :
    Made m (do let t ← prim (objects rest).tuple; x t) (.list l) := by
  intro var
  obtain ⟨vs, m', h1, h2, h3, h4⟩ := h var [] (by simp)
  refine ⟨.ref m.length, m', ?_, ?_, ?_, ?_⟩
  · rw [bind_ok (prim_eq (m' := m ++ [.list []]) (v := .ref m.length) rfl), h1]
  · have := h2.1; simp at this; omega
  · intro n c _ hc
    exact h2.2 n c (by have := (List.getElem?_eq_some_iff.1 hc).1; omega) (keeps_append n c (Nat.zero_le _) hc)
  · exact .list (Nat.le_refl _) h3 (h4.mono (by omega) keeps_refl)

/-- One value is made and added to the list. -/
theorem adds_cons {m : Heap} {p : Nat} {x : M Val Heap E Val} {r : Val → M Val Heap E Val} {d l} (h : Made m x d)
    (hr : ∀ m, Adds m p (r (.ref p)) l) : Adds m p (do let v ← x; let t ← prim ((objects rest).push (.ref p) v); r t) (.cons d l) := by
  intro var vs hc
  obtain ⟨v, m1, h1, h2, h3, h4⟩ := h var
  have hp : p < m.length := (List.getElem?_eq_some_iff.1 hc).1
  have hc1 := h3 p _ (Nat.zero_le _) hc
  obtain ⟨vs', m2, g1, g2, g3, g4⟩ := hr (m1.set p (.list (vs ++ [v]))) var (vs ++ [v]) (getElem_set_self hc1)
  refine ⟨v :: vs', m2, ?_, ?_, ?_, ?_⟩
  · rw [bind_ok h1, bind_ok (prim_eq (push_eq rest hc1)), g1]
  · exact but_trans (keeps_but h3 h2) (but_trans but_set g2)
  · rw [g3]; simp
  · refine .cons (h4.mono (by omega) ?_) g4
    exact keeps_trans (keeps_set hp) (but_keeps g2 hp)

theorem adds_nil {m : Heap} {p : Nat} : Adds (E := E) m p (pure (.ref p)) .nil :=
  fun var vs hc => ⟨[], m, rfl, but_refl, by simpa using hc, .nil⟩

/-- The keys in the table are not among those to come. -/
def Apart (ps : List (Val × Val)) (l : Pairs) : Prop := ∀ q ∈ ps, (∃ w, q.1 = .imm w) ∨ ∃ k, q.1 = .str k ∧ Fresh k l

theorem putPair_new {ps : List (Val × Val)} {k v d l} (h : Apart ps (.cons (.str k) d l)) : putPair (.str k) v ps = ps ++ [(.str k, v)] := by
  induction ps with
  | nil => rfl
  | cons q ps ih =>
    have hne : q.1.same (.str k) = Bool.false := by
      rcases h q (by simp) with ⟨w, h1⟩ | ⟨k', h1, h2⟩
      · rw [h1]; rfl
      · rw [h1]
        simp only [Val.same, beq_eq_false_iff_ne]
        exact fun e => h2.1 (by rw [e])
    obtain ⟨a, b⟩ := q
    simp only at hne
    rw [putPair, if_neg (by rw [hne]; decide), ih (fun q hq => h q (by simp [hq]))]
    rfl

/-- Pairs are added. -/
def Puts (m : Heap) (p : Nat) (x : M Val Heap E Val) (l : Pairs) : Prop :=
  ∀ var ps, m[p]? = some (.table ps) → Apart ps l → ∃ ps' m', x ⟨var, m⟩ = .ok (.ref p, ⟨var, m'⟩) ∧ But p m m' ∧ m'[p]? = some (.table (ps ++ ps')) ∧
    FromPairs (p + 1) m' ps' l

theorem puts_nil {m : Heap} {p : Nat} : Puts (E := E) m p (pure (.ref p)) .nil :=
  fun var ps hc _ => ⟨[], m, rfl, but_refl, by simpa using hc, .nil⟩

theorem puts_cons {m : Heap} {p : Nat} {x : M Val Heap E Val} {r : M Val Heap E Val} {k d l} (h : Made m x d)
    (hr : ∀ m, Puts m p r l) (hf : Fresh k l) :
    Puts m p (do let v ← x; prim_ ((objects rest).put (.ref p) (.str k) v); r) (.cons (.str k) d l) := by
  intro var ps hc hd
  obtain ⟨v, m1, h1, h2, h3, h4⟩ := h var
  have hp : p < m.length := (List.getElem?_eq_some_iff.1 hc).1
  have hc1 := h3 p _ (Nat.zero_le _) hc
  obtain ⟨ps', m2, g1, g2, g3, g4⟩ := hr (m1.set p (.table (ps ++ [(.str k, v)]))) var (ps ++ [(.str k, v)]) (getElem_set_self hc1) (by
    intro q hq
    rcases List.mem_append.1 hq with hq | hq
    · rcases hd q hq with h | ⟨k', e1, e2⟩
      · exact .inl h
      · exact .inr ⟨k', e1, e2.2⟩
    · simp only [List.mem_singleton] at hq
      exact .inr ⟨k, by rw [hq], hf⟩)
  refine ⟨(.str k, v) :: ps', m2, ?_, ?_, ?_, ?_⟩
  · rw [bind_ok h1, bind_ok (prim__eq (by rw [put_eq rest hc1, putPair_new hd])), g1]
  · exact but_trans (keeps_but h3 h2) (but_trans but_set g2)
  · rw [g3]; simp
  · refine .cons .str (h4.mono (by omega) ?_) g4
    exact keeps_trans (keeps_set hp) (but_keeps g2 hp)

/-- The first pair makes a table of the list. -/
theorem made_table {m : Heap} {x : M Val Heap E Val} {r : Val → M Val Heap E Val} {k d l} (h : ∀ m, Made m x d)
    (hr : ∀ m p, Puts m p (r (.ref p)) l) (hf : Fresh k l) :
    Made m (do let t ← prim (objects rest).tuple; let v ← x; prim_ ((objects rest).put t (.str k) v); r t) (.table (.cons (.str k) d l)) := by
  intro var
  obtain ⟨v, m1, h1, h2, h3, h4⟩ := h (m ++ [.list []]) var
  have hc : (m ++ [.list []] : Heap)[m.length]? = some (.list []) := by simp
  have hc1 := h3 _ _ (Nat.zero_le _) hc
  have hl : (m ++ [.list []] : Heap).length = m.length + 1 := by simp
  obtain ⟨ps', m2, g1, g2, g3, g4⟩ := hr (m1.set m.length (.table [(.str k, v)])) m.length var [(.str k, v)] (getElem_set_self hc1) (by
    intro q hq
    simp only [List.mem_singleton] at hq
    exact .inr ⟨k, by rw [hq], hf⟩)
  have hb : But m.length (m ++ [.list []]) m2 := but_trans (keeps_but h3 h2) (but_trans but_set g2)
  refine ⟨.ref m.length, m2, ?_, ?_, ?_, ?_⟩
  · rw [bind_ok (prim_eq (m' := m ++ [.list []]) (v := .ref m.length) rfl), bind_ok h1, bind_ok (prim__eq (put_eq0 rest hc1)), g1]
  · have := hb.1; omega
  · intro n c _ hc
    exact hb.2 n c (by have := (List.getElem?_eq_some_iff.1 hc).1; omega) (keeps_append n c (Nat.zero_le _) hc)
  · refine .table (Nat.le_refl _) g3 ?_
    refine .cons .str (h4.mono (by omega) (keeps_trans (keeps_set (by omega)) (but_keeps g2 (by omega)))) (g4.mono (by omega) keeps_refl)

theorem castPairs_imm : ∀ (vs : List Val) (i : Nat), ∀ q ∈ castPairs i vs, ∃ w, q.1 = .imm w
  | [], _ => by simp [castPairs]
  | v :: vs, i => fun q hq => by
    rw [castPairs] at hq
    rcases List.mem_cons.1 hq with rfl | hq
    · exact ⟨_, rfl⟩
    · exact castPairs_imm vs (i + 1) q hq

/-- Elements are added to the list, then it becomes a table and pairs are added. -/
def Mixes (m : Heap) (p : Nat) (x : M Val Heap E Val) (l : Data) (ps : Pairs) : Prop :=
  ∀ var vs, m[p]? = some (.list vs) → ∃ vs' ps' m', x ⟨var, m⟩ = .ok (.ref p, ⟨var, m'⟩) ∧ But p m m' ∧
    m'[p]? = some (.table (castPairs 0 (vs ++ vs') ++ ps')) ∧ FromAll (p + 1) m' vs' l ∧ FromPairs (p + 1) m' ps' ps

theorem mixes_pairs {m : Heap} {p : Nat} {x : M Val Heap E Val} {r : M Val Heap E Val} {k d l} (h : Made m x d)
    (hr : ∀ m, Puts m p r l) (hf : Fresh k l) :
    Mixes m p (do let v ← x; prim_ ((objects rest).put (.ref p) (.str k) v); r) .nil (.cons (.str k) d l) := by
  intro var vs hc
  obtain ⟨v, m1, h1, h2, h3, h4⟩ := h var
  have hp : p < m.length := (List.getElem?_eq_some_iff.1 hc).1
  have hc1 := h3 p _ (Nat.zero_le _) hc
  have e : putPair (.str k) v (castPairs 0 vs) = castPairs 0 vs ++ [(.str k, v)] :=
    putPair_new (d := .nil) (l := .nil) fun q hq => .inl (castPairs_imm vs 0 q hq)
  have hput : (objects rest).put (.ref p) (.str k) v m1 = .ok (m1.set p (.table (castPairs 0 vs ++ [(.str k, v)]))) := by
    show put rest (.ref p) (.str k) v m1 = _
    unfold put; rw [show cellAt m1 (.ref p) = m1[p]? from rfl, hc1]; simp only [e]; rfl
  obtain ⟨ps', m2, g1, g2, g3, g4⟩ := hr (m1.set p (.table (castPairs 0 vs ++ [(.str k, v)]))) var _ (getElem_set_self hc1) (by
    intro q hq
    rcases List.mem_append.1 hq with hq | hq
    · exact .inl (castPairs_imm vs 0 q hq)
    · simp only [List.mem_singleton] at hq
      exact .inr ⟨k, by rw [hq], hf⟩)
  refine ⟨[], (.str k, v) :: ps', m2, ?_, ?_, ?_, .nil, ?_⟩
  · rw [bind_ok h1, bind_ok (prim__eq hput), g1]
  · exact but_trans (keeps_but h3 h2) (but_trans but_set g2)
  · rw [g3]; simp
  · refine .cons .str (h4.mono (by omega) ?_) g4
    exact keeps_trans (keeps_set hp) (but_keeps g2 hp)

theorem mixes_cons {m : Heap} {p : Nat} {x : M Val Heap E Val} {r : Val → M Val Heap E Val} {d l ps} (h : Made m x d)
    (hr : ∀ m, Mixes m p (r (.ref p)) l ps) : Mixes m p (do let v ← x; let t ← prim ((objects rest).push (.ref p) v); r t) (.cons d l) ps := by
  intro var vs hc
  obtain ⟨v, m1, h1, h2, h3, h4⟩ := h var
  have hp : p < m.length := (List.getElem?_eq_some_iff.1 hc).1
  have hc1 := h3 p _ (Nat.zero_le _) hc
  obtain ⟨vs', ps', m2, g1, g2, g3, g4, g5⟩ := hr (m1.set p (.list (vs ++ [v]))) var (vs ++ [v]) (getElem_set_self hc1)
  refine ⟨v :: vs', ps', m2, ?_, ?_, ?_, ?_, g5⟩
  · rw [bind_ok h1, bind_ok (prim_eq (push_eq rest hc1)), g1]
  · exact but_trans (keeps_but h3 h2) (but_trans but_set g2)
  · rw [g3]; simp
  · refine .cons (h4.mono (by omega) ?_) g4
    exact keeps_trans (keeps_set hp) (but_keeps g2 hp)

theorem from_numbered {lo m ps' ps} : ∀ {vs l}, FromAll lo m vs l → FromPairs lo m ps' ps → ∀ i, i + count l ≤ 2 ^ 62 →
    FromPairs lo m (castPairs i vs ++ ps') (numbered i l ps)
  | [], _, .nil, h, _, _ => h
  | _ :: vs, _, .cons h h', hp, i, hi => by
    rw [count] at hi
    refine .cons (.int (denotes_pnNum ?_)) h (from_numbered h' hp (i + 1) (by omega))
    unfold InRange; omega

theorem made_mixed {m : Heap} {x : Val → M Val Heap E Val} {l : Data} {ps : Pairs} (h : Mixes (m ++ [.list []]) m.length (x (.ref m.length)) l ps)
    (hl : count l ≤ 2 ^ 62) : Made m (do let t ← prim (objects rest).tuple; x t) (.table (numbered 0 l ps)) := by
  intro var
  obtain ⟨vs, ps', m', h1, h2, h3, h4, h5⟩ := h var [] (by simp)
  refine ⟨.ref m.length, m', ?_, ?_, ?_, ?_⟩
  · rw [bind_ok (prim_eq (m' := m ++ [.list []]) (v := .ref m.length) rfl), h1]
  · have := h2.1; simp at this; omega
  · intro n c _ hc
    exact h2.2 n c (by have := (List.getElem?_eq_some_iff.1 hc).1; omega) (keeps_append n c (Nat.zero_le _) hc)
  · exact .table (Nat.le_refl _) h3 (from_numbered (h4.mono (by omega) keeps_refl) (h5.mono (by omega) keeps_refl) 0 (by omega))

/-- A lick: contents, attributes. -/
theorem made_lick {m : Heap} {x y : M Val Heap E Val} {n d a} (h : Made m x d) (h' : ∀ m, Made m y a) :
    Made m (do let i ← x; let a ← y; prim ((objects rest).lick (.str n) i a)) (.lick (.str n) d a) := by
  intro var
  obtain ⟨v, m1, h1, h2, h3, h4⟩ := h var
  obtain ⟨w, m2, g1, g2, g3, g4⟩ := h' m1 var
  refine ⟨.ref m2.length, m2 ++ [.lick (.str n) v w], ?_, ?_, ?_, ?_⟩
  · rw [bind_ok h1, bind_ok g1]; exact prim_eq rfl
  · simp; omega
  · exact keeps_trans h3 (keeps_trans g3 keeps_append)
  · have hc : (m2 ++ [.lick (.str n) v w] : Heap)[m2.length]? = some (.lick (.str n) v w) := by simp
    refine .lick (by omega) hc .str ?_ ?_
    · exact h4.mono (Nat.le_refl _) (keeps_le (keeps_trans g3 keeps_append) (Nat.zero_le _))
    · exact g4.mono (by omega) (keeps_le keeps_append (Nat.zero_le _))

theorem M.assoc {α β γ : Type} (x : M Val Heap E α) (f : α → M Val Heap E β) (g : β → M Val Heap E γ) :
    (x >>= f) >>= g = x >>= fun a => f a >>= g := by
  funext s
  simp only [Bind.bind]
  cases x s <;> rfl

mutual
theorem writes_made {e d} : Writes e d → ∀ (m : Heap) (K : List Ident), Made m (evalE (objects rest) me Bool.false e K) d
  | .nil, m, K => by rw [evalE_chain]; exact lit_made rest me .nil m K
  | .true, m, K => by rw [evalE_chain]; exact lit_made rest me .true m K
  | .false, m, K => by rw [evalE_chain]; exact lit_made rest me .false m K
  | .int h, m, K => by rw [evalE_chain]; exact lit_made rest me (.int h) m K
  | .str h, m, K => by rw [evalE_chain]; exact lit_made rest me (.str h) m K
  | .list (es := es) (l := l) h, m, K => by
    rw [evalE_chain, evalC]
    exact made_from_adds rest (x := fun t => evalL (objects rest) me es K t) (writesAll_adds h _ K _)
  | .table (e := e) (es := es) (k := k) h h' hf, m, K => by
    rw [evalE_chain, evalC]
    simp only [evalL]
    exact made_table rest (x := evalE (objects rest) me Bool.false e K) (r := fun t => evalL (objects rest) me es (namesE e K) t)
      (fun m => writes_made h m K) (fun m p => writesPairs_puts h' m _ p) hf
  | .mixed (e := e) (es := es) (d := d) (l := l) h h' hl, m, K => by
    rw [evalE_chain, evalC]
    refine made_mixed rest (x := fun t => evalL (objects rest) me (.cons e es) K t) ?_ (by rw [count]; omega)
    simp only [evalL]
    exact mixes_cons rest (r := fun t => evalL (objects rest) me es (namesE e K) t) (writes_made h _ K) (fun m => writesMixed_mixes h' m _ _)
  | .licks (ls := ls) h, m, K => by
    rw [evalE_chain, evalC]
    exact made_from_adds rest (x := fun t => evalK (objects rest) me ls K t) (writesLicks_adds h _ K _)
theorem writesAll_adds {es l} : WritesAll es l → ∀ (m : Heap) (K : List Ident) (p : Nat), Adds m p (evalL (objects rest) me es K (.ref p)) l
  | .nil, m, K, p => by rw [evalL]; exact adds_nil
  | .cons (e := e) (es := es) h h', m, K, p => by
    rw [evalL]
    exact adds_cons rest (r := fun t => evalL (objects rest) me es (namesE e K) t) (writes_made h m K) (fun m => writesAll_adds h' m _ p)
theorem writesPairs_puts {es l} : WritesPairs es l → ∀ (m : Heap) (K : List Ident) (p : Nat), Puts m p (evalL (objects rest) me es K (.ref p)) l
  | .nil, m, K, p => by rw [evalL]; exact puts_nil
  | .cons h h' hf, m, K, p => by
    rw [evalL]
    exact puts_cons rest (writes_made h m K) (fun m => writesPairs_puts h' m _ p) hf
theorem writesMixed_mixes {es l ps} : WritesMixed es l ps → ∀ (m : Heap) (K : List Ident) (p : Nat),
    Mixes m p (evalL (objects rest) me es K (.ref p)) l ps
  | .pairs h h' hf, m, K, p => by
    rw [evalL]
    exact mixes_pairs rest (writes_made h m K) (fun m => writesPairs_puts h' m _ p) hf
  | .cons (e := e) (es := es) h h', m, K, p => by
    rw [evalL]
    exact mixes_cons rest (r := fun t => evalL (objects rest) me es (namesE e K) t) (writes_made h m K) (fun m => writesMixed_mixes h' m _ p)
theorem writesInner_made {c d} : WritesInner c d → ∀ (m : Heap) (K : List Ident), Made m (orNil (objects rest) c (evalC (objects rest) me c K)) d
  | .none, m, K => imm_made .nil
  | .lit h, m, K => lit_made rest me h m K
  | .licks (ls := ls) h, m, K => by
    show Made m (evalC _ _ _ _) _
    rw [evalC]
    exact made_from_adds rest (x := fun t => evalK (objects rest) me ls K t) (writesLicks_adds h _ K _)
theorem writesLicks_adds {ls l} : WritesLicks ls l → ∀ (m : Heap) (K : List Ident) (p : Nat), Adds m p (evalK (objects rest) me ls K (.ref p)) l
  | .nil, m, K, p => by rw [evalK]; exact adds_nil
  | .item (x := x) (c := c) (r := r) h h', m, K, p => by
    have := adds_cons rest (r := fun t => evalK (objects rest) me r (namesC c K) t)
      (made_lick rest (n := x) (writesInner_made h m K) (y := pure (.imm PN_NIL)) (fun m => imm_made .nil)) (fun m => writesLicks_adds h' m _ p)
    rw [M.assoc] at this
    rw [evalK]
    exact this
  | .attrs (x := x) (c := c) (as := as) (r := r) h ha h', m, K, p => by
    have := adds_cons rest (r := fun t => evalK (objects rest) me r (namesL as (namesC c K)) t)
      (made_lick rest (n := x) (writesInner_made h m K) (fun m => writes_made ha m (namesC c K))) (fun m => writesLicks_adds h' m _ p)
    rw [evalE_chain, evalC] at this
    simp only [M.assoc] at this
    rw [evalK]
    exact this
end

end Potion.Send
