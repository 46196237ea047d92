import Verif.Model.Ast
import Verif.Model.Lower
import Verif.Proof.CompileSame
/-! The texts of a program read as its syntax tree. -/
namespace Potion.Compile
open Potion Potion.Vm Potion.Peg Potion.Spec

/-- Statements `ts` without separator at the end. -/
structure RList (s : List Byte) (ts : List Tree) : Prop where
  ne : ts ≠ []
  one : Reads .stmts s (.tup ts)
  sep : ∀ {w sp}, Space w sp → Separator sp → Reads .stmts (s ++ (w ++ sp)) (.tup ts)
  more : ∀ {w sp s' l}, Space w sp → Separator sp → Reads .stmts s' (.tup l) → Reads .stmts (s ++ (w ++ (sp ++ s'))) (.tup (ts ++ l))

/-- What is proved of each phrase. -/
def T : Phrase → List Byte → Prop
  | .ex ℓ p, s => ∃ t S, Reads (.ex ℓ) s t ∧ sourceOf t = some S ∧ Alike S (toSrc p)
  | .stmt p, s => ∃ ts S, RList s ts ∧ seqOf ts = some S ∧ Alike S (toSrc p)
  | .stmts p, s => ∃ a l S, Reads .stmts s (.tup (a :: l)) ∧ seqOf (a :: l) = some S ∧ Alike S (toSrc p)
  | .list p, s => ∃ t S, Reads .list s (node1 .list t) ∧ stmtsOf t = some S ∧ Alike S (toSrc p)
  | .block p, s => ∃ t S, Reads .block s (node1 .block t) ∧ stmtsOf t = some S ∧ Alike S (toSrc p)
  | .tail r, s => ∃ l S, Reads .calls s (.tup l) ∧ chainOf l = some S ∧ Alike S (toTail r)
  | .line r, s => ∃ s1 s2 c l m S, s = s1 ++ s2 ∧ Reads .call s1 c ∧ Reads .calls s2 (.tup l) ∧ messageSrc c = some m ∧ chainOf l = some S ∧
      Alike (.chain m S) (toTail r)
  | .lines r, s => ∃ ts S, RList s ts ∧ seqOf ts = some S ∧ Alike S (toTail r)
  | .args as, s => ∃ t S, Reads .list s t ∧ argsSrc t = some S ∧ Alike S (toArgs as) ∧ absent t = false
  | .items as, s => ∃ a l S, Reads .stmts s (.tup (a :: l)) ∧ argsOf (a :: l) = some S ∧ Alike S (toArgs as)
  | .params ps, s => ∃ t, Reads .list s t ∧ paramsOf t = some ps
  | .names ps, s => ∃ a l, Reads .stmts s (.tup (a :: l)) ∧ namesOf (a :: l) = some ps

theorem RList.single {s a} (h : Reads (.ex 0) s a) : RList s [a] :=
  ⟨by simp, .one h, fun h1 h2 => .oneSep h h1 h2, fun h1 h2 h3 => .more h h1 h2 h3⟩
theorem RList.cons {s a w sp s' ts} (h : Reads (.ex 0) s a) (hw : Space w sp) (hs : Separator sp) (h' : RList s' ts) :
    RList (s ++ (w ++ (sp ++ s'))) (a :: ts) := by
  refine ⟨by simp, .more h hw hs h'.one, fun h1 h2 => ?_, fun h1 h2 h3 => ?_⟩
  · have := Reads.more h hw hs (h'.sep h1 h2)
    simp only [List.append_assoc] at this ⊢; exact this
  · have := Reads.more h hw hs (h'.more h1 h2 h3)
    simp only [List.append_assoc] at this ⊢; exact this

theorem seqOf_append : ∀ {ts l S S'}, ts ≠ [] → l ≠ [] → seqOf ts = some S → seqOf l = some S' →
    ∃ S'', seqOf (ts ++ l) = some S'' ∧ Alike S'' (.seq S S')
  | [a], b :: l, S, S', _, _, h, h' => by
    rw [seqOf] at h
    refine ⟨.seq S S', ?_, .refl _⟩
    rw [List.cons_append, List.nil_append, seqOf, h, h']; rfl; simp
  | a :: b :: ts, l, S, S', _, hl, h, h' => by
    rw [seqOf] at h
    · cases ha : sourceOf a with
      | none => rw [ha] at h; simp at h
      | some A =>
        rw [ha] at h
        cases hb : seqOf (b :: ts) with
        | none => rw [hb] at h; simp at h
        | some B =>
          rw [hb] at h
          obtain ⟨B', h1, h2⟩ := seqOf_append (ts := b :: ts) (by simp) hl hb h'
          refine ⟨.seq A B', ?_, ?_⟩
          · rw [List.cons_append, seqOf, ha, h1]; rfl; simp
          · have : S = .seq A B := by simpa using h.symm
            rw [this]
            exact (Alike.seq (.refl A) h2).trans (Alike.assoc A B S').symm
    · simp
  | [_], [], _, _, _, h, _, _ => absurd rfl h
  | [], _, _, _, h, _, _, _ => absurd rfl h

theorem absent_nil : absent (.imm PN_NIL) = true := rfl

theorem source_wrap {a s} (h : messageSrc a = some s) {l s'} (hl : chainOf l = some s') :
    sourceOf (operand a l) = some (.chain s s') := by
  have : ∀ t b c, a ≠ .node .list t b c := by rintro t b c rfl; simp [messageSrc] at h
  rw [operand, node1, sourceOf]
  · simp [absent_nil, h, hl]
  · intro t b c e _; exact this t b c e

theorem reads_operand {s t} (h : Reads .atom s t) : Reads (.ex 10) s (operand t []) := by
  have := Reads.operand h Reads.calls0
  simpa using this

theorem reads_msg {x} (h : IsName x) : Reads .atom x (.node .msg (.str x) (.imm PN_NIL) (.imm PN_NIL)) := by
  have := Reads.atomCall (Reads.call0 (.name h) .noBlock)
  simpa using this

theorem name_if : IsName (chars "if") := by refine ⟨⟨_, _, rfl, by decide, by decide⟩, by decide, ?_⟩; intro r h; simp [chars] at h
theorem name_elsif : IsName (chars "elsif") := by refine ⟨⟨_, _, rfl, by decide, by decide⟩, by decide, ?_⟩; intro r h; simp [chars] at h
theorem name_else : IsName (chars "else") := by refine ⟨⟨_, _, rfl, by decide, by decide⟩, by decide, ?_⟩; intro r h; simp [chars] at h
theorem name_while : IsName (chars "while") := by refine ⟨⟨_, _, rfl, by decide, by decide⟩, by decide, ?_⟩; intro r h; simp [chars] at h
theorem name_loop : IsName (chars "loop") := by refine ⟨⟨_, _, rfl, by decide, by decide⟩, by decide, ?_⟩; intro r h; simp [chars] at h
theorem name_return : IsName (chars "return") := by refine ⟨⟨_, _, rfl, by decide, by decide⟩, by decide, ?_⟩; intro r h; simp [chars] at h
theorem name_break : IsName (chars "break") := by refine ⟨⟨_, _, rfl, by decide, by decide⟩, by decide, ?_⟩; intro r h; simp [chars] at h
theorem name_continue : IsName (chars "continue") := by refine ⟨⟨_, _, rfl, by decide, by decide⟩, by decide, ?_⟩; intro r h; simp [chars] at h

theorem listSrc_of {t} : listSrc (node1 .list t) = stmtsOf t := by simp [listSrc, node1, absent_nil]
theorem blockSrc_of {t} : blockSrc (node1 .block t) = stmtsOf t := by simp [blockSrc, node1, absent_nil]

theorem not_keyword {x} (h : IsVar x) : x ∉ keywords := by
  intro hx
  obtain ⟨⟨_, h1, h2⟩, h3⟩ := h
  simp only [keywords, List.map_cons, List.map_nil, List.mem_cons, List.not_mem_nil, or_false] at hx
  rcases hx with h | h | h | h | h | h | h | h | h | h | h | h | h | h | h | h | h
  all_goals first
    | exact h2 [] h
    | exact h3 _ (by decide) h
    | exact h1 _ (by decide) h

theorem message_var {x} (h : IsVar x) : messageOf x none none none true true = some (.msg x) := by
  have hk := not_keyword h
  have : ∀ s ∈ keywords, x ≠ s := fun s hs e => hk (e ▸ hs)
  unfold messageOf
  rw [if_neg (this _ (by decide)), if_neg (this _ (by decide)), if_neg (this _ (by decide)), if_neg (this _ (by decide)),
    if_neg (this _ (by decide)), if_neg (by simp), if_neg (this _ (by decide)), if_neg (by simp), if_neg (this _ (by decide)),
    if_neg (this _ (by decide)), if_neg (this _ (by decide)), if_neg hk]

theorem message_call {x as l} (h : IsVar x) : messageOf x l (some as) none false true = some (.call x as) := by
  have hk := not_keyword h
  have : ∀ s ∈ keywords, x ≠ s := fun s hs e => hk (e ▸ hs)
  unfold messageOf
  rw [if_neg (this _ (by decide)), if_neg (this _ (by decide)), if_neg (this _ (by decide)), if_neg (this _ (by decide)),
    if_neg (this _ (by decide)), if_neg (by simp), if_neg (this _ (by decide)), if_pos (by simp), if_neg hk]; rfl

theorem reads_zero {s t} (h : Reads (.ex 10) s t) : Reads (.ex 0) s t :=
  .up (by omega) <| .up (by omega) <| .up (by omega) <| .up (by omega) <| .up (by omega) <|
    .up (by omega) <| .up (by omega) <| .up (by omega) <| .up (by omega) <| .up (by omega) h

theorem reads_name {x} (h : IsName x) : Reads (.ex 0) x (operand (.node .msg (.str x) (.imm PN_NIL) (.imm PN_NIL)) []) :=
  reads_zero (reads_operand (reads_msg h))

theorem source_bin {o a b p t t' A B} (h : Combines o a b p) (ht : sourceOf t = some A) (ha : Alike A (toSrc a)) (ht' : sourceOf t' = some B)
    (hb : Alike B (toSrc b)) : ∃ S, sourceOf (node2 o.kind t t') = some S ∧ Alike S (toSrc p) := by
  cases h with
  | @arith op _ _ => exact ⟨.bin (opNode op) A B, by cases op <;> simp [Op.bin, Bin.kind, node2, sourceOf, binOf, absent_nil, ht, ht', opNode], ha.bin hb⟩
  | @rel r _ _ => exact ⟨.bin (relNode r) A B, by cases r <;> simp [Rel.bin, Bin.kind, node2, sourceOf, binOf, absent_nil, ht, ht', relNode], ha.bin hb⟩
  | eq => exact ⟨.bin .eq A B, by simp [Bin.kind, node2, sourceOf, binOf, absent_nil, ht, ht'], ha.bin hb⟩
  | ne => exact ⟨.bin .neq A B, by simp [Bin.kind, node2, sourceOf, binOf, absent_nil, ht, ht'], ha.bin hb⟩
  | and => exact ⟨.and A B, by simp [Bin.kind, node2, sourceOf, absent_nil, ht, ht'], ha.and hb⟩
  | or => exact ⟨.or A B, by simp [Bin.kind, node2, sourceOf, absent_nil, ht, ht'], ha.or hb⟩

theorem msg_if {v b s s'} (h : listSrc v = some s) (h' : blockSrc b = some s') :
    messageSrc (.node .msg (.str (chars "if")) v b) = some (.ifm s s') := by
  rw [messageSrc, h, h']; rfl
theorem msg_elsif {v b s s'} (h : listSrc v = some s) (h' : blockSrc b = some s') :
    messageSrc (.node .msg (.str (chars "elsif")) v b) = some (.elsifm s s') := by
  rw [messageSrc, h, h']; rfl
theorem msg_while {v b s s'} (h : listSrc v = some s) (h' : blockSrc b = some s') :
    messageSrc (.node .msg (.str (chars "while")) v b) = some (.whilem s s') := by
  rw [messageSrc, h, h']; rfl
theorem msg_else {b s'} (h' : blockSrc b = some s') :
    messageSrc (.node .msg (.str (chars "else")) (.imm PN_NIL) b) = some (.elsem s') := by
  rw [messageSrc, h', absent_nil]; rfl
theorem msg_loop {b s'} (h' : blockSrc b = some s') :
    messageSrc (.node .msg (.str (chars "loop")) (.imm PN_NIL) b) = some (.loopm s') := by
  rw [messageSrc, h', absent_nil]; rfl

/-- A chain of one. -/
theorem Alike.wrap {a b : Src} (h : Alike a b) : Alike (wrap a) (wrap b) := h.chain (.refl _)

theorem says_reads {c s} (h : Says c s) : T c s := by
  induction h with
  | int h1 h2 => exact ⟨_, _, reads_operand (.atomLit (.int ⟨h1, h2⟩)), source_wrap (by simp [node1, messageSrc, absent_nil]) rfl, .refl _⟩
  | true => exact ⟨_, _, reads_operand (.atomLit .true), source_wrap (by simp [node1, messageSrc, absent_nil]; rfl) rfl, .refl _⟩
  | false => exact ⟨_, _, reads_operand (.atomLit .false), source_wrap (by simp [node1, messageSrc, absent_nil]; rfl) rfl, .refl _⟩
  | nil => exact ⟨_, _, reads_operand (.atomLit .nil), source_wrap (by simp [node1, messageSrc, absent_nil]) rfl, .refl _⟩
  | var hx => exact ⟨_, _, reads_operand (reads_msg hx.1), source_wrap (by simp [messageSrc, absent_nil, listSrc, argsSrc, blockSrc, message_var hx]) rfl, .refl _⟩
  | group _ ih =>
    obtain ⟨t, S, h1, h2, h3⟩ := ih
    exact ⟨_, .paren S, reads_operand (.atomList h1), by simp [operand, node1, sourceOf, absent_nil, h2], h3.paren⟩
  | @pre x up w hx hw =>
    cases up
    · have := Reads.preDec hw (reads_msg hx.1) .calls0
      rw [List.append_nil] at this
      exact ⟨_, _, this, source_wrap (by simp [node2, messageSrc, absent_nil]) rfl, .refl _⟩
    · have := Reads.preInc hw (reads_msg hx.1) .calls0
      rw [List.append_nil] at this
      exact ⟨_, _, this, source_wrap (by simp [node2, messageSrc, absent_nil]) rfl, .refl _⟩
  | @post x up w hx hw =>
    cases up
    · have := Reads.postDec (reads_msg hx.1) hw .calls0
      rw [List.append_nil] at this
      exact ⟨_, _, this, source_wrap (by simp [node2, messageSrc, absent_nil]) rfl, .refl _⟩
    · have := Reads.postInc (reads_msg hx.1) hw .calls0
      rw [List.append_nil] at this
      exact ⟨_, _, this, source_wrap (by simp [node2, messageSrc, absent_nil]) rfl, .refl _⟩
  | not hsp hg hne _ ih =>
    obtain ⟨t, S, h1, h2, h3⟩ := ih
    exact ⟨_, _, .not hsp hg hne h1, source_wrap (s := .not S) (by simp [node1, messageSrc, absent_nil, h2]) rfl, h3.not.wrap⟩
  | bitnot hg _ ih =>
    obtain ⟨t, S, h1, h2, h3⟩ := ih
    exact ⟨_, _, .bitnot hg h1, source_wrap (s := .wavy S) (by simp [node1, messageSrc, absent_nil, h2]) rfl, h3.wavy.wrap⟩
  | ifs hw _ hw' _ _ ih1 ih2 ih3 =>
    obtain ⟨t, S, h1, h2, h3⟩ := ih1
    obtain ⟨t', S', h1', h2', h3'⟩ := ih2
    obtain ⟨l, S'', h1'', h2'', h3''⟩ := ih3
    exact ⟨_, _, .operand (.atomCall (.callList (.name name_if) hw h1 (.someBlock hw' h1'))) h1'',
      source_wrap (msg_if (listSrc_of.trans h2) (blockSrc_of.trans h2')) h2'', (h3.ifm h3').chain h3''⟩
  | endif => exact ⟨_, _, .calls0, rfl, .refl _⟩
  | sameLine hw0 hne _ ih =>
    obtain ⟨s1, s2, c, l, m, S, rfl, h1, h2, h3, h4, h5⟩ := ih
    exact ⟨_, _, .calls hw0 hne h1 h2, by rw [chainOf, h3, h4]; rfl, h5⟩
  | elsif hw _ hw' _ _ ih1 ih2 ih3 =>
    obtain ⟨t, S, h1, h2, h3⟩ := ih1
    obtain ⟨t', S', h1', h2', h3'⟩ := ih2
    obtain ⟨l, S'', h1'', h2'', h3''⟩ := ih3
    exact ⟨_, _, _, l, _, _, rfl, .callList (.name name_elsif) hw h1 (.someBlock hw' h1'), h1'',
      msg_elsif (listSrc_of.trans h2) (blockSrc_of.trans h2'), h2'', (h3.elsifm h3').chain h3''⟩
  | els hw _ ih =>
    obtain ⟨t, S, h1, h2, h3⟩ := ih
    exact ⟨_, [], _, [], _, _, (List.append_nil _).symm, .call0 (.name name_else) (.someBlock hw h1), .calls0,
      msg_else (blockSrc_of.trans h2), rfl, h3.elsem.wrap⟩
  | «while» hw _ hw' _ ih1 ih2 =>
    obtain ⟨t, S, h1, h2, h3⟩ := ih1
    obtain ⟨t', S', h1', h2', h3'⟩ := ih2
    exact ⟨_, _, reads_operand (.atomCall (.callList (.name name_while) hw h1 (.someBlock hw' h1'))),
      source_wrap (msg_while (listSrc_of.trans h2) (blockSrc_of.trans h2')) rfl, (h3.whilem h3').wrap⟩
  | loop hw _ ih =>
    obtain ⟨t, S, h1, h2, h3⟩ := ih
    exact ⟨_, _, reads_operand (.atomCall (.call0 (.name name_loop) (.someBlock hw h1))), source_wrap (msg_loop (blockSrc_of.trans h2)) rfl, h3.loopm.wrap⟩
  | brk => exact ⟨_, _, reads_operand (reads_msg name_break), source_wrap (s := .brk) (by simp only [messageSrc]; rfl) rfl, .refl _⟩
  | cont => exact ⟨_, _, reads_operand (reads_msg name_continue), source_wrap (s := .cont) (by simp only [messageSrc]; rfl) rfl, .refl _⟩
  | ret hw _ ih =>
    obtain ⟨t, S, h1, h2, h3⟩ := ih
    have := Reads.atomCall (.callList (.name name_return) hw h1 .noBlock)
    refine ⟨_, _, reads_operand (by simpa using this), source_wrap (s := .retv S) ?_ rfl, h3.retv.wrap⟩
    rw [messageSrc, listSrc_of.trans h2]; rfl
  | retNil => exact ⟨_, _, reads_operand (reads_msg name_return), source_wrap (s := .ret0) (by simp only [messageSrc]; rfl) rfl, .refl _⟩
  | fn _ hw _ ih1 ih2 =>
    obtain ⟨t, h1, h2⟩ := ih1
    obtain ⟨t', S, h1', h2', h3'⟩ := ih2
    refine ⟨_, _, reads_operand (.atomFn h1 hw h1'), source_wrap (s := .fn _ S) ?_ rfl, h3'.fn.wrap⟩
    rw [node2, messageSrc, absent_nil, blockSrc_of.trans h2', h2]; rfl
  | call hx hw _ ih =>
    obtain ⟨t, S, h1, h2, h3, h4⟩ := ih
    have := Reads.atomCall (.callList (.name hx.1) hw h1 .noBlock)
    refine ⟨_, _, reads_operand (by simpa using this), source_wrap (s := .call _ S) ?_ rfl, h3.call.wrap⟩
    rw [messageSrc, h2, h4]; exact message_call hx
  | args0 hg => exact ⟨_, _, .list0 hg, rfl, .refl _, rfl⟩
  | args hg _ hw ih =>
    obtain ⟨a, l, S, h1, h2, h3⟩ := ih
    exact ⟨_, S, .list hg h1 hw, by rw [node1, argsSrc, h2]; rfl, h3, rfl⟩
  | item _ ih =>
    obtain ⟨t, S, h1, h2, h3⟩ := ih
    exact ⟨_, _, .acons S .anil, .one h1, by rw [argsOf, h2]; rfl, h3.acons (.refl _)⟩
  | itemSep _ hw hsp ih =>
    obtain ⟨t, S, h1, h2, h3⟩ := ih
    exact ⟨_, _, .acons S .anil, .oneSep h1 hw hsp, by rw [argsOf, h2]; rfl, h3.acons (.refl _)⟩
  | items _ hw hsp _ ih1 ih2 =>
    obtain ⟨t, S, h1, h2, h3⟩ := ih1
    obtain ⟨a, l, S', h1', h2', h3'⟩ := ih2
    exact ⟨_, _, .acons S S', .more h1 hw hsp h1', by rw [argsOf, h2, h2']; rfl, h3.acons h3'⟩
  | params0 hg => exact ⟨_, .list0 hg, rfl⟩
  | params hg _ hw ih =>
    obtain ⟨a, l, h1, h2⟩ := ih
    exact ⟨_, .list hg h1 hw, by rw [node1, paramsOf, h2]; rfl⟩
  | name hx => exact ⟨_, _, .one (reads_name hx), rfl⟩
  | nameSep hx hw hsp => exact ⟨_, _, .oneSep (reads_name hx) hw hsp, rfl⟩
  | names hx hw hsp _ ih =>
    obtain ⟨a, l, h1, h2⟩ := ih
    exact ⟨_, _, .more (reads_name hx) hw hsp h1, by rw [operand, node1, namesOf, h2]; rfl⟩
  | up hl _ ih =>
    obtain ⟨t, S, h1, h2, h3⟩ := ih
    exact ⟨t, S, .up hl h1, h2, h3⟩
  | bin hc _ hw hsp hwd hg hne _ ih1 ih2 =>
    obtain ⟨t, S, h1, h2, h3⟩ := ih1
    obtain ⟨t', S', h1', h2', h3'⟩ := ih2
    obtain ⟨B, hB, hB'⟩ := source_bin hc h2 h3 h2' h3'
    exact ⟨_, B, .bin h1 hw hsp hwd hg hne h1', hB, hB'⟩
  | assign hx hw hg _ ih =>
    obtain ⟨t, S, h1, h2, h3⟩ := ih
    have h3' : Reads (.ex 2) _ _ := .up (by omega) <| .up (by omega) <| .up (by omega) <| .up (by omega) <| .up (by omega) <|
      .up (by omega) <| .up (by omega) <| .up (by omega) <| reads_operand (reads_msg hx)
    exact ⟨_, .assign _ S, .assign h3' hw hg h1, by simp [node2, operand, node1, sourceOf, absent_nil, h2], h3.assigns⟩
  | stmt _ ih =>
    obtain ⟨t, S, h1, h2, h3⟩ := ih
    exact ⟨[t], S, .single h1, by rw [seqOf, h2], h3⟩
  | @stmtIf c a r r' _ _ _ _ _ ho hw hsp _ ih1 ih2 =>
    obtain ⟨t, S, h1, h2, h3⟩ := ih1
    obtain ⟨ts, S', h1', h2', h3'⟩ := ih2
    obtain ⟨S'', h4, h5⟩ := seqOf_append (ts := [t]) (by simp) h1'.ne (by rw [seqOf, h2]) h2'
    refine ⟨t :: ts, S'', .cons (reads_zero h1) hw hsp h1', h4, h5.trans ((h3.seq h3').trans ?_)⟩
    exact Alike.splitIf _ _ r r' ho
  | lines1 _ ih =>
    obtain ⟨s1, s2, c, l, m, S, rfl, h1, h2, h3, h4, h5⟩ := ih
    exact ⟨[_], .chain m S, .single (reads_zero (.operand (.atomCall h1) h2)), by rw [seqOf]; exact source_wrap h3 h4, h5⟩
  | @lines r r' _ _ _ _ _ ho hw hsp _ ih1 ih2 =>
    obtain ⟨s1, s2, c, l, m, S, rfl, h1, h2, h3, h4, h5⟩ := ih1
    obtain ⟨ts, S', h1', h2', h3'⟩ := ih2
    obtain ⟨S'', h6, h7⟩ := seqOf_append (ts := [operand c l]) (by simp) h1'.ne (by rw [seqOf]; exact source_wrap h3 h4) h2'
    exact ⟨_, S'', .cons (reads_zero (.operand (.atomCall h1) h2)) hw hsp h1', h6, h7.trans ((h5.seq h3').trans (Alike.splitTail r r' ho))⟩
  | one _ ih =>
    obtain ⟨ts, S, h1, h2, h3⟩ := ih
    obtain ⟨a, l, rfl⟩ := List.exists_cons_of_ne_nil h1.ne
    exact ⟨a, l, S, h1.one, h2, h3⟩
  | oneSep _ hw hsp ih =>
    obtain ⟨ts, S, h1, h2, h3⟩ := ih
    obtain ⟨a, l, rfl⟩ := List.exists_cons_of_ne_nil h1.ne
    exact ⟨a, l, S, h1.sep hw hsp, h2, h3⟩
  | more _ hw hsp _ ih1 ih2 =>
    obtain ⟨ts, S, h1, h2, h3⟩ := ih1
    obtain ⟨a, l, S', h1', h2', h3'⟩ := ih2
    obtain ⟨S'', h4, h5⟩ := seqOf_append h1.ne (by simp) h2 h2'
    have := h1.more hw hsp h1'
    obtain ⟨b, l', e⟩ := List.exists_cons_of_ne_nil (l := ts ++ a :: l) (by simp)
    rw [e] at this h4
    exact ⟨b, l', S'', this, h4, h5.trans (h3.seq h3')⟩
  | list0 hg => exact ⟨_, _, .list0 hg, rfl, .refl _⟩
  | list hg _ hw ih =>
    obtain ⟨a, l, S, h1, h2, h3⟩ := ih
    exact ⟨_, S, .list hg h1 hw, by rw [stmtsOf, h2], h3⟩
  | block0 hg => exact ⟨_, _, .block0 hg, rfl, .refl _⟩
  | block hg _ hw ih =>
    obtain ⟨a, l, S, h1, h2, h3⟩ := ih
    exact ⟨_, S, .block hg h1 hw, by rw [stmtsOf, h2], h3⟩

/-- A text of a program reads as a tree that has the code of its syntax tree. -/
theorem text_reads {s p} (h : IsTextOf s p) : ∃ t S, IsProgram s t ∧ programOf t = some S ∧ Alike S (toSrc p) := by
  cases h with
  | empty hg => exact ⟨_, _, .empty hg, rfl, .refl _⟩
  | stmts hg hs hw =>
    obtain ⟨a, l, S, h1, h2, h3⟩ := says_reads hs
    exact ⟨_, S, .stmts hg h1 hw, by simp [programOf, node1, absent_nil, stmtsOf, h2], h3⟩

end Potion.Compile
