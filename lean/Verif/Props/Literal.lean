import Verif.Proof.Literal
import Verif.Props.Send
import Verif.Props.Syntax
import Verif.Props.Show
/-! C78: a value written down in a program is that value. -/
namespace Potion.Send
open Potion Potion.Peg Potion.CompileAll Potion.Spec

mutual
theorem writes_ok {e d} : Writes e d → okE e = Bool.true ∧ isSet e = Bool.false
  | .nil | .true | .false | .int _ => ⟨rfl, rfl⟩
  | .str h => ⟨by simp [okE, okC, literal, Chain.isHere, h], rfl⟩
  | .list h => ⟨by simp [okE, okC, Chain.isHere, writesAll_ok h], rfl⟩
  | .table h h' _ => ⟨by simp [okE, okC, okL, Chain.isHere, (writes_ok h).1, writesPairs_ok h'], rfl⟩
  | .mixed h h' _ => ⟨by simp [okE, okC, okL, Chain.isHere, (writes_ok h).1, (writes_ok h).2, writesMixed_ok h'], rfl⟩
  | .licks h => ⟨by simp [okE, okC, Chain.isHere, writesLicks_ok h], rfl⟩
theorem writesAll_ok {es l} : WritesAll es l → okL es = Bool.true
  | .nil => rfl
  | .cons h h' => by simp [okL, (writes_ok h).1, (writes_ok h).2, writesAll_ok h']
theorem writesPairs_ok {es l} : WritesPairs es l → okL es = Bool.true
  | .nil => rfl
  | .cons h h' _ => by simp [okL, (writes_ok h).1, writesPairs_ok h']
theorem writesMixed_ok {es l ps} : WritesMixed es l ps → okL es = Bool.true
  | .pairs h h' _ => by simp [okL, (writes_ok h).1, writesPairs_ok h']
  | .cons h h' => by simp [okL, (writes_ok h).1, (writes_ok h).2, writesMixed_ok h']
theorem writesInner_ok {c d} : WritesInner c d → okC c = Bool.true ∧ inner c = Bool.true
  | .none => ⟨rfl, rfl⟩
  | .lit h => by have := (writes_ok h).1; simp only [okE, Bool.and_eq_true] at this; exact ⟨this.1, rfl⟩
  | .licks h => ⟨by simp [okC, writesLicks_ok h], rfl⟩
theorem writesLicks_ok {ls l} : WritesLicks ls l → okK ls = Bool.true
  | .nil => rfl
  | .item h h' => by simp [okK, (writesInner_ok h).1, (writesInner_ok h).2, writesLicks_ok h']
  | .attrs h ha h' => by
    have := (writes_ok ha).1
    simp only [okE, okC, Bool.and_eq_true] at this
    simp [okK, (writesInner_ok h).1, (writesInner_ok h).2, this.1, writesLicks_ok h']
end

/-- The program is compiled, and if its code fits into the fields of its instructions, running it in memory `m` returns a value that is `d`; every object
there was is as it was. `rest` is what the other operations do. -/
def Builds (dl : List (BitVec 8) → Bool) (t : Tree) (d : Datum) : Prop := ∃ N, ∀ n ≥ N, ∃ f, compile dl n t = some f ∧
  (f.fits → ∀ (E : Type) (rest : World Val Heap E) (me : Val) (reg : Nat → Val) (m : Heap),
    ∃ k v m', run (objects rest) me f k ⟨0, reg, fun _ => .imm PN_NIL, m⟩ = .done v m' ∧ Rep m' v d ∧ ∀ (n : Nat) (c : Cell), m[n]? = some c → m'[n]? = some c)

theorem builds_of {dl : List (BitVec 8) → Bool} {es : List Ex} {d : Datum} (h : ∀ e ∈ es, okE e = Bool.true)
    (h' : ∀ (E : Type) (rest : World Val Heap E) (me v0 : Val) (m : Heap), ∃ v s, evalP (objects rest) me es [] v0 ⟨fun _ => .imm PN_NIL, m⟩ = .ok (v, s) ∧
      Keeps 0 m s.mem ∧ Rep s.mem v d) : Builds dl (program es) d := by
  obtain ⟨N, hN⟩ := C77_run dl es h
  refine ⟨N, fun n hn => ?_⟩
  obtain ⟨f, h1, h2⟩ := hN n hn
  refine ⟨f, h1, fun hf E rest me reg m => ?_⟩
  obtain ⟨v, s, h3, h4, h5⟩ := h' E rest me (reg 0) m
  have := h2 hf Val Heap E (objects rest) me reg m
  rw [show (objects rest).const .nil = .imm PN_NIL from rfl, h3] at this
  obtain ⟨k, hk⟩ := this
  exact ⟨k, v, s.mem, hk, h5, fun n c hc => h4 n c (Nat.zero_le _) hc⟩

/-- C78: an expression that writes down a value, of nil, booleans, numbers, strings, lists, tables and licks in any nesting, is compiled to code that makes this value. -/
theorem C78_run (dl : List (BitVec 8) → Bool) {e : Ex} {d : Datum} (h : Writes e d) : Builds dl (program [e]) d := by
  refine builds_of (by simp [(writes_ok h).1]) fun E rest me v0 m => ?_
  obtain ⟨v, m', h1, _, h3, h4⟩ := writes_made rest me h m [] (fun _ => .imm PN_NIL)
  refine ⟨v, ⟨fun _ => .imm PN_NIL, m'⟩, ?_, h3, h4.rep⟩
  simp only [evalP]
  rw [bind_ok h1]; rfl

/-! ### Texts -/

theorem reads_up1 {s t} (h : Reads (.ex 10) s t) : Reads (.ex 1) s t := by
  have : ∀ n, n ≤ 9 → Reads (.ex (10 - n)) s t := by
    intro n
    induction n with
    | zero => intro _; exact h
    | succ n ih =>
      intro hn
      refine Reads.up (by omega) ?_
      rw [show 10 - (n + 1) + 1 = 10 - n by omega]
      exact ih (by omega)
  exact this 9 (by omega)
theorem reads_up2 {s t} (h : Reads (.ex 10) s t) : Reads (.ex 2) s t := by
  have : ∀ n, n ≤ 8 → Reads (.ex (10 - n)) s t := by
    intro n
    induction n with
    | zero => intro _; exact h
    | succ n ih =>
      intro hn
      refine Reads.up (by omega) ?_
      rw [show 10 - (n + 1) + 1 = 10 - n by omega]
      exact ih (by omega)
  exact this 8 (by omega)

theorem reads_lit {s v} (h : Reads .lit s (node1 .value v)) : Reads (.ex 10) s (tree (.chain (.lit v))) := by
  have := Reads.operand (.atomLit h) .calls0
  rw [List.append_nil] at this
  exact this
theorem reads_list {s t es} (h : Reads .list s (node1 .list t)) (e : t = tupOf (trees es)) : Reads (.ex 10) s (tree (.chain (.list es))) := by
  have := Reads.operand (.atomList h) .calls0
  rw [List.append_nil, e] at this
  exact this
theorem reads_name {k} (h : IsName k) : Reads (.ex 10) k (leaf .expr (.tup [leaf .msg (.str k)])) := by
  have := Reads.operand (.atomCall (.call0 (.name h) .noBlock)) .calls0
  rw [List.append_nil, List.append_nil] at this
  exact this

mutual
theorem spells_reads {s d} : Spells s d → ∃ e, Writes e d ∧ Reads (.ex 10) s (tree e)
  | .nil => ⟨_, .nil, reads_lit .nil⟩
  | .true => ⟨_, .true, reads_lit .true⟩
  | .false => ⟨_, .false, reads_lit .false⟩
  | .int h hr => ⟨_, .int (denotes_pnNum hr), reads_lit (.int h)⟩
  | .str h hn => ⟨_, .str hn, reads_lit (.str h)⟩
  | .empty h => ⟨_, .list .nil, reads_list (.list0 h) rfl⟩
  | .list hg h hw => by
    obtain ⟨es, h1, h2, h3⟩ := spellsAll_reads h
    refine ⟨_, .list h1, reads_list (.list hg h2 hw) ?_⟩
    obtain ⟨a, l, e⟩ := h3
    rw [e]; rfl
  | .table hg h hw => by
    obtain ⟨k, e, es, d, l, h1, h2, h3, h4, h5⟩ := spellsPairs_reads h
    subst h1
    refine ⟨_, .table h2 h3 h4, reads_list (.list hg h5 hw) rfl⟩
  | .mixed hg h hw hs h' hl hw' => by
    obtain ⟨e, h1, h2⟩ := spells_reads h
    obtain ⟨es, g1, g2⟩ := spellsMixed_reads h'
    exact ⟨_, .mixed h1 g1 hl, reads_list (.list hg (.more (Show.reads_up h2) hw hs g2) hw') rfl⟩
theorem spellsMixed_reads {s l ps} : SpellsMixed s l ps → ∃ es, WritesMixed es l ps ∧ Reads .stmts s (.tup (trees es))
  | .pairs h => by
    obtain ⟨k, e, es, d, l, h1, h2, h3, h4, h5⟩ := spellsPairs_reads h
    subst h1
    exact ⟨_, .pairs h2 h3 h4, h5⟩
  | .cons h hw hs h' => by
    obtain ⟨e, h1, h2⟩ := spells_reads h
    obtain ⟨es, g1, g2⟩ := spellsMixed_reads h'
    exact ⟨_, .cons h1 g1, .more (Show.reads_up h2) hw hs g2⟩
theorem spellsAll_reads {s l} : SpellsAll s l → ∃ es, WritesAll es l ∧ Reads .stmts s (.tup (trees es)) ∧ ∃ a l, trees es = a :: l
  | .one h => by
    obtain ⟨e, h1, h2⟩ := spells_reads h
    exact ⟨.cons e .nil, .cons h1 .nil, .one (Show.reads_up h2), _, _, rfl⟩
  | .oneSep h hw hs => by
    obtain ⟨e, h1, h2⟩ := spells_reads h
    exact ⟨.cons e .nil, .cons h1 .nil, .oneSep (Show.reads_up h2) hw hs, _, _, rfl⟩
  | .more h hw hs h' => by
    obtain ⟨e, h1, h2⟩ := spells_reads h
    obtain ⟨es, g1, g2, _⟩ := spellsAll_reads h'
    exact ⟨.cons e es, .cons h1 g1, .more (Show.reads_up h2) hw hs g2, _, _, rfl⟩
theorem spellsPair_reads {s k d} : SpellsPair s k d → ∃ e, Writes e d ∧
    Reads (.ex 0) s (.node .assign (leaf .expr (.tup [leaf .msg (.str k)])) (tree e) .nil)
  | .mk hk hw hg h => by
    obtain ⟨e, h1, h2⟩ := spells_reads h
    exact ⟨e, h1, .up (by omega) (.assign (reads_up2 (reads_name hk)) hw hg (reads_up1 h2))⟩
theorem spellsPairs_reads {s l'} : SpellsPairs s l' → ∃ k e es d l, l' = .cons (.str k) d l ∧ Writes e d ∧ WritesPairs es l ∧ Fresh k l ∧
    Reads .stmts s (.tup (trees (.pair k e es)))
  | .one h => by
    obtain ⟨e, h1, h2⟩ := spellsPair_reads h
    exact ⟨_, e, .nil, _, .nil, rfl, h1, .nil, trivial, .one h2⟩
  | .oneSep h hw hs => by
    obtain ⟨e, h1, h2⟩ := spellsPair_reads h
    exact ⟨_, e, .nil, _, .nil, rfl, h1, .nil, trivial, .oneSep h2 hw hs⟩
  | .more h hw hs h' hf => by
    obtain ⟨e, h1, h2⟩ := spellsPair_reads h
    obtain ⟨k', e', es, d', l, e0, g1, g2, g3, g4⟩ := spellsPairs_reads h'
    subst e0
    exact ⟨_, e, .pair k' e' es, _, _, rfl, h1, .cons g1 g2 g3, hf, .more h2 hw hs g4⟩
end

/-- C78: a text that writes down a value without licks, with any white space around it, is parsed, and the code it is compiled to makes this value. -/
theorem C78_text (dl : List (BitVec 8) → Bool) {g s w : List (BitVec 8)} {d : Datum} (hg : Gap Bool.false g) (h : Spells s d) (hw : Space w []) :
    ∃ t, (∃ f0, ∀ f, f0 ≤ f → Peg.parse f (g ++ (s ++ w)) = some (some t)) ∧ Builds dl t d := by
  obtain ⟨e, h1, h2⟩ := spells_reads h
  exact ⟨_, C51_parse (IsProgram.stmts hg (.one (Show.reads_up h2)) hw), C78_run dl h1⟩

/-! ### Parts -/

theorem repAll_nth {m vs l} (h : RepAll m vs l) : ∀ (i : Nat) d, nth l i = some d → ∃ v, vs[i]? = some v ∧ Rep m v d := by
  induction vs generalizing l with
  | nil => intro i d hd; cases h; simp [nth] at hd
  | cons v vs ih =>
    cases h with
    | cons h h' =>
      intro i d hd
      cases i with
      | zero => simp only [nth, Option.some.injEq] at hd; subst hd; exact ⟨v, rfl, h⟩
      | succ i => exact ih h' i d hd

theorem evalP_set_chain {E : Type} {W : World Val Heap E} {me v0 v r : Val} {x : Ident} {e : Ex} {c : Chain} {var : Ident → Val} {m m' : Heap}
    (h : evalE W me Bool.false e (addName [] x) ⟨var, m⟩ = .ok (v, ⟨var, m'⟩))
    (h' : evalC W me c (namesE e (addName [] x)) ⟨fun y => if y = x then v else var y, m'⟩ = .ok (r, ⟨fun y => if y = x then v else var y, m'⟩)) :
    evalP W me [.set x e, .chain c] [] v0 ⟨var, m⟩ = .ok (r, ⟨fun y => if y = x then v else var y, m'⟩) := by
  simp only [evalP, evalE, M.assoc]
  rw [bind_ok h, bind_ok (a := ()) (s' := ⟨fun y => if y = x then v else var y, m'⟩) rfl]
  show ((evalE W me Bool.false (.chain c) (namesE e (addName [] x))) >>= fun v => pure v) _ = _
  rw [evalE_chain, bind_ok h']
  rfl

/-- C78: `x = (…), x[i]` is element `i` of the list written down. -/
theorem C78_element (dl : List (BitVec 8) → Bool) {x : Ident} {e : Ex} {l : Data} {i : Nat} {d : Datum} (hx : isUpper x = Bool.false) (h : Writes e (.list l))
    (hi : i < 1024) (hd : nth l i = some d) : Builds dl (program [.set x e, .chain (.index x (.num i))]) d := by
  refine builds_of (fun e' he => ?_) fun E rest me v0 m => ?_
  · simp only [List.mem_cons, List.not_mem_nil, or_false] at he
    rcases he with rfl | rfl
    · simp [okE, hx, (writes_ok h).1]
    · simp [okE, okC, okKey, Chain.isHere, hi]
  · obtain ⟨v, m', h1, _, h3, h4⟩ := writes_made rest me h m (addName [] x) (fun _ => .imm PN_NIL)
    have h4' := h4.rep
    cases h4' with
    | list hc hl =>
      rename_i p vs
      obtain ⟨r, hr, hrep⟩ := repAll_nth hl i d hd
      refine ⟨r, ⟨_, m'⟩, evalP_set_chain h1 ?_, h3, hrep⟩
      simp only [evalC, evalKey]
      rw [bind_ok (a := .ref p) (s' := ⟨fun y => if y = x then .ref p else .imm PN_NIL, m'⟩) (by simp [readVar])]
      refine prim_eq ?_
      show tupleAt rest (.ref p) (.imm (pnNum i)) m' = _
      have e1 : pnInt (pnNum (i : Int)) = i := pnInt_pnNum_of_fits (by unfold Fits63; omega)
      have e2 : i < vs.length := (List.getElem?_eq_some_iff.1 hr).1
      unfold tupleAt
      rw [show cellAt m' (.ref p) = m'[p]? from rfl, hc]
      simp only [e1]
      rw [if_pos ⟨by omega, by simpa using e2⟩]
      simp only [Int.toNat_natCast]
      rw [List.getD_eq_getElem?_getD, hr]
      rfl

theorem repPairs_get {m ps l} (h : RepPairs m ps l) (k : Ident) (d : Datum) (hd : atKey l k d) (hs : ∀ q ∈ ps, (∃ w, q.1 = .imm w) ∨ ∃ k', q.1 = .str k') :
    Rep m ((getPair (.str k) ps).getD (.imm PN_NIL)) d := by
  induction ps generalizing l with
  | nil =>
    cases h
    simp only [atKey] at hd
    subst hd
    exact .nil
  | cons q ps ih =>
    obtain ⟨a, b⟩ := q
    cases h with
    | cons hk h h' =>
      rw [getPair]
      simp only [atKey] at hd
      obtain ⟨w, hq⟩ | ⟨k', hq⟩ := hs (a, b) (by simp)
      · simp only at hq
        subst hq
        rw [if_neg (by simp [Val.same])]
        rcases hd with ⟨he, _⟩ | ⟨_, hd⟩
        · subst he; cases hk
        · exact ih h' hd (fun q hq => hs q (by simp [hq]))
      simp only at hq
      subst hq
      cases hk
      by_cases e : k' = k
      · subst e
        rw [if_pos (by simp [Val.same])]
        rcases hd with ⟨_, rfl⟩ | ⟨hne, _⟩
        · exact h
        · exact absurd rfl hne
      · rw [if_neg (by simp [Val.same, e])]
        rcases hd with ⟨he, _⟩ | ⟨_, hd⟩
        · exact absurd (Datum.str.inj he) e
        · exact ih h' hd (fun q hq => hs q (by simp [hq]))

theorem repPairs_keys {m es l ps} (h : WritesPairs es l) (h' : RepPairs m ps l) : ∀ q ∈ ps, (∃ w, q.1 = .imm w) ∨ ∃ k', q.1 = .str k' := by
  induction ps generalizing es l with
  | nil => simp
  | cons q ps ih =>
    cases h' with
    | cons hk _ h' =>
      cases h with
      | cons _ h _ =>
        intro q hq
        rcases List.mem_cons.1 hq with rfl | hq
        · cases hk; exact .inr ⟨_, rfl⟩
        · exact ih h h' q hq

theorem repNumbered_keys {m ps} : ∀ {l qs}, (∀ {qs}, RepPairs m qs ps → ∀ q ∈ qs, (∃ w, q.1 = .imm w) ∨ ∃ k', q.1 = .str k') → ∀ i,
    RepPairs m qs (numbered i l ps) → ∀ q ∈ qs, (∃ w, q.1 = .imm w) ∨ ∃ k', q.1 = .str k'
  | .nil, _, h, _, h' => h h'
  | .cons _ l, _, h, i, .cons hk _ h' => by
    intro q hq
    rcases List.mem_cons.1 hq with rfl | hq
    · cases hk; exact .inl ⟨_, rfl⟩
    · exact repNumbered_keys (l := l) h (i + 1) h' q hq

theorem repMixed_keys {m es l ps} : WritesMixed es l ps → ∀ {qs}, RepPairs m qs ps → ∀ q ∈ qs, (∃ w, q.1 = .imm w) ∨ ∃ k', q.1 = .str k'
  | .pairs h h' hf => repPairs_keys (.cons h h' hf)
  | .cons _ h => repMixed_keys h

/-- C78: `x = (k=…), x["k"]` is the value at this key of the table written down, nil if there is none. -/
theorem C78_key (dl : List (BitVec 8) → Bool) {x k : Ident} {e : Ex} {l : Pairs} {d : Datum} (hx : isUpper x = Bool.false) (h : Writes e (.table l))
    (hd : atKey l k d) : Builds dl (program [.set x e, .chain (.index x (.lit (.str k)))]) d := by
  refine builds_of (fun e' he => ?_) fun E rest me v0 m => ?_
  · simp only [List.mem_cons, List.not_mem_nil, or_false] at he
    rcases he with rfl | rfl
    · simp [okE, hx, (writes_ok h).1]
    · simp [okE, okC, okKey, Chain.isHere]
  · obtain ⟨v, m', h1, _, h3, h4⟩ := writes_made rest me h m (addName [] x) (fun _ => .imm PN_NIL)
    have h4' := h4.rep
    cases h4' with
    | table hc hl =>
      rename_i p ps
      have hs : ∀ q ∈ ps, (∃ w, q.1 = .imm w) ∨ ∃ k', q.1 = .str k' := by
        generalize e0 : Datum.table l = d0 at h
        cases h with
        | table h' hps hf => cases e0; exact repPairs_keys (.cons h' hps hf) hl
        | mixed h' hm _ => cases e0; exact repNumbered_keys (repMixed_keys hm) 0 hl
        | _ => cases e0
      refine ⟨(getPair (.str k) ps).getD (.imm PN_NIL), ⟨_, m'⟩, evalP_set_chain h1 ?_, h3, repPairs_get hl k d hd hs⟩
      simp only [evalC, evalKey]
      rw [bind_ok (a := .ref p) (s' := ⟨fun y => if y = x then .ref p else .imm PN_NIL, m'⟩) (by simp [readVar])]
      refine prim_eq ?_
      show tableAt rest (.ref p) (.str k) m' = _
      unfold tableAt
      rw [show cellAt m' (.ref p) = m'[p]? from rfl, hc]

/-- C78: the methods of a lick give its name, its attributes, what is in it if that is a text, and if that is a list; nil otherwise. -/
theorem C78_lick {m : Heap} {v : Val} {n i a : Datum} (h : Rep m v (.lick n i a)) :
    (∃ r, lickName m v = some r ∧ Rep m r n) ∧ (∃ r, lickAttr m v = some r ∧ Rep m r a) ∧
    (∃ r, lickText m v = some r ∧ ((∃ s, i = .str s ∧ Rep m r i) ∨ ((∀ s, i ≠ .str s) ∧ Rep m r .nil))) ∧
    (∃ r, lickLicks m v = some r ∧ ((∃ l, i = .list l ∧ Rep m r i) ∨ ((∀ l, i ≠ .list l) ∧ Rep m r .nil))) := by
  cases h with
  | lick hc hn hi ha =>
    rename_i p x y z
    have e : cellAt m (.ref p) = some (.lick x y z) := hc
    refine ⟨⟨x, by unfold lickName; rw [e], hn⟩, ⟨z, by unfold lickAttr; rw [e], ha⟩, ?_, ?_⟩
    · unfold lickText
      rw [e]
      cases hi with
      | str => exact ⟨_, rfl, .inl ⟨_, rfl, .str⟩⟩
      | _ => exact ⟨_, rfl, .inr ⟨by simp, .nil⟩⟩
    · unfold lickLicks
      rw [e]
      cases hi with
      | list h1 h2 =>
        rename_i p' vs l
        have e' : cellAt m (.ref p') = some (.list vs) := h1
        exact ⟨.ref p', by simp only [e'], .inl ⟨_, rfl, .list h1 h2⟩⟩
      | table h1 h2 =>
        rename_i p' vs l
        have e' : cellAt m (.ref p') = some (.table vs) := h1
        exact ⟨_, by simp only [e'], .inr ⟨by simp, .nil⟩⟩
      | lick h1 h2 h3 h4 =>
        rename_i p' a b c _ _ _
        have e' : cellAt m (.ref p') = some (.lick a b c) := h1
        exact ⟨_, by simp only [e'], .inr ⟨by simp, .nil⟩⟩
      | _ => exact ⟨_, rfl, .inr ⟨by simp, .nil⟩⟩

/-! ### Setting a key -/

/-- A value whose equality is that of words: all but constants other than immediate values and strings. -/
def Comparable : Val → Prop
  | .other _ => False
  | _ => True

theorem same_iff {a b : Val} (h : Comparable b) : a.same b = Bool.true ↔ a = b := by
  cases a <;> cases b <;> simp_all [Val.same, Comparable]

theorem getPair_put_self {k v : Val} (hk : Comparable k) (l : List (Val × Val)) : getPair k (putPair k v l) = some v := by
  induction l with
  | nil => rw [putPair, getPair, if_pos ((same_iff hk).2 rfl)]
  | cons q l ih =>
    obtain ⟨a, b⟩ := q
    rw [putPair]
    by_cases h : a.same k = Bool.true
    · rw [if_pos h, getPair, if_pos h]
    · rw [if_neg h, getPair, if_neg h, ih]

theorem getPair_put_other {k k' v : Val} (hk : Comparable k) (hk' : Comparable k') (hne : k' ≠ k) (l : List (Val × Val)) :
    getPair k' (putPair k v l) = getPair k' l := by
  have e : ∀ a : Val, a.same k = Bool.true → ¬ a.same k' = Bool.true := fun a h h' => hne (((same_iff hk').1 h').symm.trans ((same_iff hk).1 h))
  induction l with
  | nil => simp only [putPair, getPair, if_neg (e k ((same_iff hk).2 rfl))]
  | cons q l ih =>
    obtain ⟨a, b⟩ := q
    rw [putPair]
    by_cases h : a.same k = Bool.true
    · rw [if_pos h, getPair, getPair, if_neg (e a h), if_neg (e a h)]
    · rw [if_neg h, getPair, getPair, ih]

theorem pnNum_inj {i j : Nat} (hi : i < 2 ^ 62) (hj : j < 2 ^ 62) (h : pnNum (i : Int) = pnNum (j : Int)) : i = j := by
  have e := congrArg pnInt h
  rw [pnInt_pnNum_of_fits (by unfold Fits63; omega), pnInt_pnNum_of_fits (by unfold Fits63; omega)] at e
  exact_mod_cast e

theorem getPair_cast (l : List Val) : ∀ (b i : Nat), b + l.length ≤ 2 ^ 62 → i < l.length → getPair (.imm (pnNum ((b + i : Nat) : Int))) (castPairs b l) = l[i]? := by
  induction l with
  | nil => intro b i _ h; simp at h
  | cons x l ih =>
    intro b i hb hi
    simp only [List.length_cons] at hb hi
    rw [castPairs, getPair]
    cases i with
    | zero => rw [if_pos (by simp [Val.same])]; rfl
    | succ i =>
      rw [if_neg, show b + (i + 1) = b + 1 + i by omega, ih (b + 1) i (by omega) (by omega)]
      · rfl
      · intro h
        simp only [Val.same, beq_iff_eq] at h
        have := pnNum_inj (by omega) (by omega) h
        omega

theorem getPair_cast_none {k : Val} (hk : Comparable k) (l : List Val) : ∀ b : Nat, (∀ i < l.length, k ≠ .imm (pnNum ((b + i : Nat) : Int))) →
    getPair k (castPairs b l) = none := by
  induction l with
  | nil => intro b _; rfl
  | cons x l ih =>
    intro b h
    rw [castPairs, getPair, if_neg, ih (b + 1)]
    · intro i hi
      have := h (i + 1) (by simp; omega)
      rwa [show b + (i + 1) = b + 1 + i by omega] at this
    · intro h'
      have := (same_iff hk).1 h'
      exact h 0 (by simp) (by rw [← this]; simp)

theorem cellAt_set_self {m : Heap} {t : Val} {c c' : Cell} (h : cellAt m t = some c) : cellAt (setCell m t c') t = some c' := by
  cases t with
  | ref n => exact getElem_set_self h
  | _ => simp [cellAt] at h
theorem cellAt_set_other {m : Heap} {t u : Val} {c' : Cell} (h : u ≠ t) : cellAt (setCell m t c') u = cellAt m u := by
  cases t <;> cases u <;> simp_all [cellAt, setCell]
  rename_i a b
  exact List.getElem?_set_ne (fun e => h e.symm)

/-- C78: setting a key of a table: this key has the value, every other key what it had, nil if nothing; no other object changes. -/
theorem C78_put {E : Type} (rest : World Val Heap E) {m : Heap} {t k v : Val} {l : List (Val × Val)} (h : cellAt m t = some (.table l)) (hk : Comparable k) :
    ∃ m', (objects rest).put t k v m = .ok m' ∧ (objects rest).tableAt t k m' = .ok (v, m') ∧
      (∀ k', Comparable k' → k' ≠ k → ∃ r, (objects rest).tableAt t k' m = .ok (r, m) ∧ (objects rest).tableAt t k' m' = .ok (r, m')) ∧
      ∀ u, u ≠ t → cellAt m' u = cellAt m u := by
  have e := cellAt_set_self (c' := .table (putPair k v l)) h
  refine ⟨setCell m t (.table (putPair k v l)), ?_, ?_, fun k' hk' hne => ⟨(getPair k' l).getD (.imm PN_NIL), ?_, ?_⟩, fun u hu => cellAt_set_other hu⟩
  · show put rest t k v m = _
    unfold put; rw [h]
  · show tableAt rest t k _ = _
    unfold tableAt; rw [e]; simp only [getPair_put_self hk, Option.getD_some]
  · show tableAt rest t k' _ = _
    unfold tableAt; rw [h]
  · show tableAt rest t k' _ = _
    unfold tableAt; rw [e]; simp only [getPair_put_other hk hk' hne]

/-- C78: setting a key of a list makes it a table: this key has the value, the number of each element has the element, all other keys nothing. -/
theorem C78_cast {E : Type} (rest : World Val Heap E) {m : Heap} {t k v : Val} {l : List Val} (h : cellAt m t = some (.list l)) (hl : l.length ≤ 2 ^ 62)
    (hk : Comparable k) :
    ∃ m', (objects rest).put t k v m = .ok m' ∧ (objects rest).tableAt t k m' = .ok (v, m') ∧
      (∀ (i : Nat) (x : Val), l[i]? = some x → k ≠ .imm (pnNum i) → (objects rest).tableAt t (.imm (pnNum i)) m' = .ok (x, m')) ∧
      (∀ k', Comparable k' → k' ≠ k → (∀ i < l.length, k' ≠ .imm (pnNum (i : Nat))) → (objects rest).tableAt t k' m' = .ok (.imm PN_NIL, m')) ∧
      ∀ u, u ≠ t → cellAt m' u = cellAt m u := by
  have e := cellAt_set_self (c' := .table (putPair k v (castPairs 0 l))) h
  refine ⟨setCell m t (.table (putPair k v (castPairs 0 l))), ?_, ?_, fun i x hx hne => ?_, fun k' hk' hne hn => ?_, fun u hu => cellAt_set_other hu⟩
  · show put rest t k v m = _
    unfold put; rw [h]
  · show tableAt rest t k _ = _
    unfold tableAt; rw [e]; simp only [getPair_put_self hk, Option.getD_some]
  · have hi := (List.getElem?_eq_some_iff.1 hx).1
    have g := getPair_cast l 0 i (by omega) hi
    rw [Nat.zero_add] at g
    show tableAt rest t _ _ = _
    unfold tableAt; rw [e]; simp only [getPair_put_other hk (show Comparable (.imm (pnNum i)) from trivial) (Ne.symm hne), g, hx, Option.getD_some]
  · show tableAt rest t k' _ = _
    unfold tableAt; rw [e]
    simp only [getPair_put_other hk hk' hne, getPair_cast_none hk' l 0 (by simpa using hn), Option.getD_none]

/-- A list of two becomes a table of three. -/
example : cellAt ([.list [.str (chars "a"), .str (chars "b")]] : Heap) (.ref 0) = some (.list [.str (chars "a"), .str (chars "b")]) ∧
    Comparable (.str (chars "k")) ∧ cellAt ([.table [(.str (chars "k"), .imm PN_TRUE)]] : Heap) (.ref 0) = some (.table [(.str (chars "k"), .imm PN_TRUE)]) :=
  ⟨rfl, trivial, rfl⟩

/-! ### Examples -/

/-- `(1, 'a', (k=nil, j=true))` -/
example : Spells (chars "(1, 'a', (k=nil, j=true))")
    (.list (.cons (.int 1) (.cons (.str (chars "a")) (.cons (.table (.cons (.str (chars "k")) .nil (.cons (.str (chars "j")) (.bool Bool.true) .nil))) .nil)))) := by
  have sep : Separator (chars ", ") := ⟨0x2C#8, chars " ", rfl, .inl rfl, .char (.inl (by decide)) .nil⟩
  have sp0 : ∀ k, Space [] k := fun k => .inl (by intro c hc; simp at hc)
  have nm : ∀ s ∈ ["k", "j"], IsName (chars s) := by
    intro s hs
    simp only [List.mem_cons, List.not_mem_nil, or_false] at hs
    rcases hs with rfl | rfl <;>
      exact ⟨⟨_, [], rfl, by decide, by simp⟩, by decide, fun r h => by have := congrArg List.length h; simp [chars] at this⟩
  have one : Spells (chars "1") (.int 1) := by
    have := Spells.int (ds := [1]) ⟨by decide, .inr ⟨1, [], rfl, by decide⟩⟩ (by decide)
    exact this
  have a : Spells (chars "'a'") (.str (chars "a")) := .str (.single (.char (u := chars "a") (.ascii (by decide)) (by decide) .nil)) (by decide)
  have k : SpellsPair (chars "k=nil") (chars "k") .nil := by
    have := SpellsPair.mk (nm "k" (by simp)) (w := []) (by intro c hc; simp at hc) (g := []) .nil .nil
    exact this
  have j : SpellsPair (chars "j=true") (chars "j") (.bool Bool.true) := by
    have := SpellsPair.mk (nm "j" (by simp)) (w := []) (by intro c hc; simp at hc) (g := []) .nil .true
    exact this
  have kj := Spells.table (g := []) .nil (.more k (sp0 _) sep (.one j) ⟨fun h => absurd (Datum.str.inj h) (by decide), trivial⟩) (sp0 _)
  exact Spells.list (g := []) .nil (.more one (sp0 _) sep (.more a (sp0 _) sep (.one kj))) (sp0 _)

/-- `(1, 'a', k=nil)` is the table with 1 at 0, 'a' at 1 and nil at k. -/
example : Spells (chars "(1, 'a', k=nil)")
    (.table (.cons (.int 0) (.int 1) (.cons (.int 1) (.str (chars "a")) (.cons (.str (chars "k")) .nil .nil)))) := by
  have sep : Separator (chars ", ") := ⟨0x2C#8, chars " ", rfl, .inl rfl, .char (.inl (by decide)) .nil⟩
  have sp0 : ∀ k, Space [] k := fun k => .inl (by intro c hc; simp at hc)
  have nm : IsName (chars "k") := ⟨⟨_, [], rfl, by decide, by simp⟩, by decide, fun r h => by have := congrArg List.length h; simp [chars] at this⟩
  have one : Spells (chars "1") (.int 1) := by
    have := Spells.int (ds := [1]) ⟨by decide, .inr ⟨1, [], rfl, by decide⟩⟩ (by decide)
    exact this
  have a : Spells (chars "'a'") (.str (chars "a")) := .str (.single (.char (u := chars "a") (.ascii (by decide)) (by decide) .nil)) (by decide)
  have k : SpellsPair (chars "k=nil") (chars "k") .nil := by
    have := SpellsPair.mk nm (w := []) (by intro c hc; simp at hc) (g := []) .nil .nil
    exact this
  exact Spells.mixed (g := []) .nil one (sp0 _) sep (.cons a (sp0 _) sep (.pairs (.one k))) (by decide) (sp0 _)

/-- `[a, b 'x', c [d] (k=1)]` is the list of the licks `a`, `b` with a text in it, and `c` with a lick in it and the attribute `k`. -/
example : let e : Ex := .chain (.licks (.item (id! "a") .here (.item (id! "b") (.lit (.str (id! "x")))
      (.attrs (id! "c") (.licks (.item (id! "d") .here .nil)) (.pair (id! "k") (num 1) .nil) .nil))))
    means "[a, b 'x', c [d] (k=1)]" [e] = Bool.true ∧
    Writes e (.list (.cons (.lick (.str (id! "a")) .nil .nil) (.cons (.lick (.str (id! "b")) (.str (id! "x")) .nil)
      (.cons (.lick (.str (id! "c")) (.list (.cons (.lick (.str (id! "d")) .nil .nil) .nil)) (.table (.cons (.str (id! "k")) (.int 1) .nil))) .nil)))) := by
  intro e
  refine ⟨by decide +kernel, .licks (.item .none (.item (.lit (.str (by decide))) (.attrs (.licks (.item .none .nil)) (.table (.int (by decide)) .nil trivial) .nil)))⟩

/-- The code of such texts fits. -/
example : ∀ s ∈ ["(1, 'a', (k=nil, j=true))", "[a, b 'x', c [d] (k=1)]"], ∃ f, ofText s = some f ∧ f.fits := by
  intro s hs
  have h : ∀ s ∈ ["(1, 'a', (k=nil, j=true))", "[a, b 'x', c [d] (k=1)]"], (ofText s).map (fun f => decide (f.fits)) = some Bool.true := by decide +kernel
  obtain ⟨f, h1, h2⟩ := Option.map_eq_some_iff.1 (h s hs)
  exact ⟨f, h1, of_decide_eq_true h2⟩

/-! ### Not so -/

/-- vm.c:733-738: an element after a pair: `(k=1, 2)` pushes 2 onto the table the list has become, as if it were a list. -/
theorem C78_refuted_mixed {E : Type} (rest : World Val Heap E) (me : Val) (var : Ident → Val) (m : Heap) (K : List Ident) (k : Ident) (v w : Tree) (err : E)
    (h : ∀ t v m l, cellAt m t = some (.table l) → rest.push t v m = .error err) :
    evalE (objects rest) me Bool.false (.chain (.list (.pair k (.chain (.lit v)) (.cons (.chain (.lit w)) .nil)))) K ⟨var, m⟩ = .error err := by
  rw [evalE_chain, evalC]
  have hc : (m ++ [.list []] : Heap)[m.length]? = some (.list []) := by simp
  rw [bind_ok (prim_eq (m' := m ++ [.list []]) (v := .ref m.length) rfl)]
  simp only [evalL]
  rw [evalE_chain, evalC, bind_ok (a := constVal v) (s' := ⟨var, m ++ [.list []]⟩) rfl, bind_ok (prim__eq (put_eq0 rest hc))]
  rw [evalE_chain, evalC, bind_ok (a := constVal w) (s' := ⟨var, _⟩) rfl]
  refine bind_error ?_
  unfold prim
  have : (objects rest).push (.ref m.length) (constVal w) ((m ++ [.list []] : Heap).set m.length (.table [((objects rest).const (.str k), constVal v)])) = .error err := by
    show push rest _ _ _ = _
    unfold push
    have e := getElem_set_self (c' := .table [((objects rest).const (.str k), constVal v)]) hc
    have e' : cellAt ((m ++ [.list []] : Heap).set m.length (.table [((objects rest).const (.str k), constVal v)])) (.ref m.length) = _ := e
    rw [e']
    exact h _ _ _ _ e'
  rw [this]

end Potion.Send
