import Verif.Proof.SyntaxParse
/-! The induction over phrases. -/
namespace Potion.Peg
open Potion Potion.Spec

theorem assoc4 (a b c d e : List Byte) : a ++ (b ++ (c ++ d)) ++ e = a ++ (b ++ (c ++ (d ++ e))) := by simp
theorem assoc3 (a b c e : List Byte) : a ++ (b ++ c) ++ e = a ++ (b ++ (c ++ e)) := by simp

theorem atomByte_lead {s} (h : ∃ c r, s = c :: r ∧ atomByte c = true) : Lead s := by
  obtain ⟨c, r, rfl, h⟩ := h
  exact ⟨c, r, rfl, (atomByte_facts c h).1⟩

theorem not_first {c : Byte} (i) (h : mayStart nulls firsts c not = false) : G not (c :: i) none :=
  fails_first _ (by decide) (by decide) h

/-- The alternatives of `expr` before its last. -/
theorem atom_others {s} (h : ∃ c r, s = c :: r ∧ atomByte c = true) (i) :
    G wavy (s ++ i) none ∧ G minus (s ++ i) none ∧ G plus (s ++ i) none ∧ G mminus (s ++ i) none ∧ G pplus (s ++ i) none := by
  obtain ⟨c, r, rfl, h⟩ := h
  obtain ⟨_, h1, h2, h3, h4, h5⟩ := atomByte_facts c h
  exact ⟨fails_first _ (by decide) (by decide) h1, fails_first _ (by decide) (by decide) h2, fails_first _ (by decide) (by decide) h3,
    fails_first _ (by decide) (by decide) h4, fails_first _ (by decide) (by decide) h5⟩

/-- `expr` from its first part and the messages after it. -/
theorem expr_of {e i a k1 l k} (h1 : G (alts [
      .act (ast .not) (right not (.nt .expr)),
      .act (ast .wavy) (right wavy (.nt .expr)),
      .act (ast2 .minus (ast .value (.imm (pnNum 0)))) (right (.seq minus (.not minus)) (.nt .atom)),
      .act (ast2 .plus (ast .value (.imm (pnNum 0)))) (right (.seq plus (.not plus)) (.nt .atom)),
      .act (fun a => ast2 .inc a (.imm (pnNum (-1) ^^^ 1#64))) (right mminus (.nt .atom)),
      .act (fun a => ast2 .inc a (.imm (pnNum 1 ^^^ 1#64))) (right pplus (.nt .atom)),
      .act (fun | .pair a (.imm w) => ast2 .inc a (.imm w) | .pair a _ => a | v => v)
        (.seq (.nt .atom) (opt (.alt (.act (fun _ => .imm (pnNum 1)) pplus) (.act (fun _ => .imm (pnNum (-1))) mminus))))]) i (some (a, k1)))
    (h2 : G (.star (.nt .call)) k1 (some (.tup l, k))) (he : e = operand a l) : G (.nt .expr) i (some (e, k)) := by
  subst he
  exact Gives.nt (Gives.act (g := fun | .pair a (.tup l) => ast .expr (.tup (a :: l)) | v => v) (h1.seq h2))

theorem right_none {a b i} (h : G a i none) {g : Tree → Tree} : G (.act g (right a b)) i none := (right_fail1 h).actFail

/-- The first six alternatives of `expr` fail on an atom. -/
theorem expr_atom {s t w k r} (hb : ∃ c r, s = c :: r ∧ atomByte c = true) (hn : G not (s ++ (w ++ k)) none)
    (h : G (.act (fun | .pair a (.imm w) => ast2 .inc a (.imm w) | .pair a _ => a | v => v)
        (.seq (.nt .atom) (opt (.alt (.act (fun _ => .imm (pnNum 1)) pplus) (.act (fun _ => .imm (pnNum (-1))) mminus)))))
        (s ++ (w ++ k)) (some (t, r))) : G (alts [
      .act (ast .not) (right not (.nt .expr)),
      .act (ast .wavy) (right wavy (.nt .expr)),
      .act (ast2 .minus (ast .value (.imm (pnNum 0)))) (right (.seq minus (.not minus)) (.nt .atom)),
      .act (ast2 .plus (ast .value (.imm (pnNum 0)))) (right (.seq plus (.not plus)) (.nt .atom)),
      .act (fun a => ast2 .inc a (.imm (pnNum (-1) ^^^ 1#64))) (right mminus (.nt .atom)),
      .act (fun a => ast2 .inc a (.imm (pnNum 1 ^^^ 1#64))) (right pplus (.nt .atom)),
      .act (fun | .pair a (.imm w) => ast2 .inc a (.imm w) | .pair a _ => a | v => v)
        (.seq (.nt .atom) (opt (.alt (.act (fun _ => .imm (pnNum 1)) pplus) (.act (fun _ => .imm (pnNum (-1))) mminus))))])
      (s ++ (w ++ k)) (some (t, r)) := by
  obtain ⟨h1, h2, h3, h4, h5⟩ := atom_others hb (w ++ k)
  exact (right_none hn).alt2 ((right_none h1).alt2 ((right_none h2.seqFail1).alt2 ((right_none h3.seqFail1).alt2
    ((right_none h4).alt2 ((right_none h5).alt2 h)))))

theorem stmts_of {s a l} (h : M .stmts s (.tup (a :: l))) {w k} (hc : Close w k) :
    G (.nt .statements) (s ++ (w ++ k)) (some (.tup (a :: l), k)) := by
  obtain ⟨_, a', l', e, h⟩ := h
  obtain ⟨r, r', h1, h2, v, h3⟩ := h w k hc
  simp only [Tree.tup.injEq, List.cons.injEq] at e
  obtain ⟨rfl, rfl⟩ := e
  exact Gives.nt (Gives.alt1 (Gives.act (g := items) (h1.seq (h2.seq h3))))

theorem stmts_none {k} (h : G (.nt .stmt) k none) : G (.nt .statements) k (some (.nil, k)) :=
  Gives.nt (Gives.alt2 h.seqFail1.actFail (Gives.act (g := fun _ => .nil) .eps))

theorem sep_byte : ∀ c : Byte, (c = 0x2C#8 ∨ c ∈ newlines) → plainByte c = true := by decide +kernel

theorem stop_sep {w sp} (hw : Space w sp) (hs : Separator sp) (r) : Stop 0 w (sp ++ r) := by
  obtain ⟨c, g, rfl, hc, hg⟩ := hs
  have s : Starts 0 (c :: g ++ r) := by
    refine .inr (.inl ⟨[c], ?_, g ++ r, rfl⟩)
    rcases hc with rfl | hc
    · decide
    · simp only [newlines, List.mem_cons, List.not_mem_nil, or_false] at hc
      rcases hc with rfl | rfl <;> decide
  exact ⟨aft_plain (space_append hw (by simp) r) (sep_byte c hc), s, fun _ => sets_fail0 s⟩

theorem headByte_facts : ∀ c : Byte, headByte c = true → (c ∉ blanks ∧ c ≠ 0x23#8) ∧ atomByte c = true ∧
    mayStart nulls firsts c (.nt .list) = false ∧ mayStart nulls firsts c (.nt .block) = false ∧
    mayStart nulls firsts c (.nt .closure) = false ∧ mayStart nulls firsts c pplus = false ∧ mayStart nulls firsts c mminus = false := by
  decide +kernel

theorem head_headByte {h kd x} (hh : IsHead h kd x) (i) : ∃ c r, h ++ i = c :: r ∧ headByte c = true := by
  obtain ⟨c, r, rfl, h⟩ := isHead_byte hh
  refine ⟨c, r ++ i, rfl, ?_⟩
  rcases h with h | rfl | rfl
  · simp [headByte, h]
  · decide
  · decide

theorem arg_blank : ∀ c : Byte, argByte c = true → (c ∉ blanks ∧ c ≠ 0x23#8) := by decide +kernel

theorem blank_gap {w} (h : Blank w) : Gap false w := by
  induction w with
  | nil => exact .nil
  | cons c w ih => exact .char (.inl (h c (by simp))) (ih fun d hd => h d (by simp [hd]))

theorem blank_space {w k} (h : Blank w) : Space w k := .inl h

theorem lit_blank : ∀ c : Byte, litByte c = true → (c ∉ blanks ∧ c ≠ 0x23#8) ∧ atomByte c = true := by decide +kernel

theorem reads_parse {c s t} (h : Reads c s t) : M c s t := by
  induction h with
  | @int ds hd =>
    have h := fun w k (ha : Aft w k) => lit_ok' (Reads.int hd) ha
    refine ⟨(h [] [] (aft_nil (.inl (by intro c hc; simp at hc)))).1, fun w k ha => ?_, fun w k ha => (h w k ha).2⟩
    obtain ⟨d, r, rfl, h10⟩ := digits_cons hd
    refine not_first _ ?_
    interval_cases d <;> decide
  | @dbl ds x hd hx =>
    have h := fun w k (ha : Aft w k) => lit_ok' (Reads.dbl hd hx) ha
    refine ⟨(h [] [] (aft_nil (.inl (by intro c hc; simp at hc)))).1, fun w k ha => ?_, fun w k ha => (h w k ha).2⟩
    obtain ⟨d, r, rfl, h10⟩ := digits_cons hd
    refine not_first _ ?_
    interval_cases d <;> decide
  | argLit hs ih =>
    obtain ⟨⟨c, r, e, hc⟩, _, h⟩ := ih
    exact ⟨⟨c, r, e, by simp [argByte, hc]⟩, h⟩
  | @argNeg ds hd hn =>
    exact ⟨⟨_, _, rfl, by decide⟩, fun w k ha => int_value (m := chars "-") (.inr ⟨rfl, hn⟩) hd ha⟩
  | @argNegDbl ds x hd hn hx =>
    exact ⟨⟨_, _, rfl, by decide⟩, fun w k ha => dbl_value (m := chars "-") (.inr ⟨rfl, hn⟩) hd hx ha⟩
  | nil =>
    refine ⟨⟨_, _, rfl, by decide⟩, fun w k ha => ?_, fun w k ha => (lit_ok' Reads.nil ha).2⟩
    exact Gives.seqFail1 (Gives.alt2 (fails_first _ (by decide) (by decide) (by decide))
      (word_fail (x := chars "nil") (by decide) (.of ha.cont) (by decide) (by decide)))
  | true => exact ⟨⟨_, _, rfl, by decide⟩, fun w k ha => not_first _ (by decide), fun w k ha => (lit_ok' Reads.true ha).2⟩
  | false => exact ⟨⟨_, _, rfl, by decide⟩, fun w k ha => not_first _ (by decide), fun w k ha => (lit_ok' Reads.false ha).2⟩
  | hex hd hn => exact ⟨⟨_, _, rfl, by decide⟩, fun w k ha => not_first _ (by decide), fun w k ha => (lit_ok' (Reads.hex hd hn) ha).2⟩
  | str hs =>
    refine ⟨?_, fun w k ha => ?_, fun w k ha => (lit_ok' (Reads.str hs) ha).2⟩
    · cases hs <;> exact ⟨_, _, rfl, by decide⟩
    · cases hs <;> exact not_first _ (by decide)
  | @list0 g hg =>
    refine ⟨⟨_, rfl⟩, fun w k hw hk => ?_⟩
    obtain ⟨v, h1⟩ := t2_ok (s := "(") (k := chars ")" ++ (w ++ k)) hg (Head.cons (by decide))
    obtain ⟨u, h2⟩ := t1_ok (s := ")") hw hk
    have h3 : G (.nt .stmt) (chars ")" ++ (w ++ k)) none := fails_first _ (by decide) (by decide) (by decide)
    have := Gives.nt (n := .list) (Gives.act (g := ast .list) (right_ok h1 (left_ok (stmts_none h3) h2)))
    rw [assoc3]; exact this
  | @list g s t w hg hs hw ih =>
    refine ⟨⟨_, rfl⟩, fun w' k hw' hk => ?_⟩
    obtain ⟨hl, a, l, rfl, _⟩ := id ih
    obtain ⟨v, h1⟩ := t2_ok (s := "(") hg (hl.wsl (w ++ (chars ")" ++ (w' ++ k))))
    obtain ⟨u, h2⟩ := t1_ok (s := ")") hw' hk
    have hc : Close w (chars ")" ++ (w' ++ k)) :=
      ⟨aft_plain (space_append hw (by simp [chars]) _) (by decide), .inr ⟨_, .inl rfl⟩⟩
    have := Gives.nt (n := .list) (Gives.act (g := ast .list) (right_ok h1 (left_ok (stmts_of ih hc) h2)))
    simp only [List.append_assoc] at this ⊢; exact this
  | @block0 g hg =>
    refine ⟨⟨_, rfl⟩, fun w k ha => ?_⟩
    obtain ⟨v, h1⟩ := t2_ok (s := ":") (k := chars "." ++ (w ++ k)) hg (Head.cons (by decide))
    obtain ⟨u, h2⟩ := t1_ok (s := ".") ha.space ha.stop
    have h3 : G (.nt .stmt) (chars "." ++ (w ++ k)) none := fails_first _ (by decide) (by decide) (by decide)
    have := Gives.nt (n := .block) (Gives.act (g := ast .block) (right_ok h1 (left_ok (stmts_none h3) h2)))
    rw [assoc3]; exact this
  | @block g s t w hg hs hw ih =>
    refine ⟨⟨_, rfl⟩, fun w' k ha => ?_⟩
    obtain ⟨hl, a, l, rfl, _⟩ := id ih
    obtain ⟨v, h1⟩ := t2_ok (s := ":") hg (hl.wsl (w ++ (chars "." ++ (w' ++ k))))
    obtain ⟨u, h2⟩ := t1_ok (s := ".") ha.space ha.stop
    have hc : Close w (chars "." ++ (w' ++ k)) :=
      ⟨aft_dot (space_append hw (by simp [chars]) _) ha.cont, .inr ⟨_, .inr rfl⟩⟩
    have := Gives.nt (n := .block) (Gives.act (g := ast .block) (right_ok h1 (left_ok (stmts_of ih hc) h2)))
    simp only [List.append_assoc] at this ⊢; exact this
  | noBlock =>
    intro w k h
    exact ⟨w, k, rfl, h.aft, h.value, h.list, orNil_none (h.block.alt2 h.closure)⟩
  | @someBlock w s t hw hs ih =>
    intro w' k h
    obtain ⟨⟨r, rfl⟩, hb⟩ := ih
    refine ⟨w, 0x3A#8 :: r ++ (w' ++ k), by simp, ?_, ?_, ?_, ?_⟩
    · exact aft_plain (.inl hw) (by decide)
    · exact fails_first _ (by decide) (by decide) (by decide)
    · exact fails_first _ (by decide) (by decide) (by decide)
    · exact Gives.alt1 (Gives.alt1 (hb w' k h.aft))
  | @call0 x kd y s b hx hs ih =>
    refine ⟨head_headByte hx s, fun w k h => ?_, fun w k h => ?_⟩
    · obtain ⟨w1, k1, e, ha, _⟩ := ih w k h
      rw [List.append_assoc, e]; exact head_only hx ha.cont
    · obtain ⟨w1, k1, e, ha, hv, hl, hb⟩ := ih w k h
      rw [List.append_assoc, e]
      exact Gives.nt (Gives.act (g := withArgs) (Gives.alt1 ((head_ok hx ha).seq ((orNil_none (hv.alt2 hl)).seq hb))))
  | @callLit x kd y w s v s' b hx hw hne hs hs' ih ih' =>
    obtain ⟨⟨c, r, rfl, hc⟩, hv⟩ := ih
    refine ⟨head_headByte hx _, fun w' k h => ?_, fun w' k h => ?_⟩
    · obtain ⟨d, t, rfl, hd⟩ := space_head (blank_space (k := []) hw) hne
      rw [List.append_assoc]
      exact head_only hx (Head.cons (blank_cont d (by simp only [gapChars, List.mem_append, List.mem_cons, List.not_mem_nil, or_false]; tauto)).1)
    · obtain ⟨w1, k1, e, ha, _, _, hb⟩ := ih' w' k h
      have ha0 : Aft w (c :: r ++ (w1 ++ k1)) :=
        aft_of (.inl hw) (Head.cons (arg_blank c hc)) fun e => absurd e hne
      have := Gives.nt (n := .call) (Gives.act (g := withArgs) (Gives.alt1 ((head_ok hx ha0).seq
        ((Gives.alt1 (Gives.alt1 (hv w1 k1 ha))).seq hb))))
      rw [show x ++ (w ++ (c :: r ++ s')) ++ (w' ++ k) = x ++ (w ++ (c :: r ++ (w1 ++ k1))) by rw [← e]; simp]
      exact this
  | @callList x kd y w s v s' b hx hw hs hs' ih ih' =>
    obtain ⟨⟨r, rfl⟩, hv⟩ := ih
    have ha0 : ∀ i, Aft w (0x28#8 :: r ++ i) := fun i => aft_plain (.inl hw) (by decide)
    refine ⟨head_headByte hx _, fun w' k h => ?_, fun w' k h => ?_⟩
    · have := (ha0 (s' ++ (w' ++ k))).cont
      rw [List.append_assoc]
      refine head_only hx ?_
      simpa using this
    · obtain ⟨w1, k1, e, ha, _, _, hb⟩ := ih' w' k h
      have hv0 : G (.nt .value) (0x28#8 :: r ++ (w1 ++ k1)) none := fails_first _ (by decide) (by decide) (by decide)
      have := Gives.nt (n := .call) (Gives.act (g := withArgs) (Gives.alt1 ((head_ok hx (ha0 (w1 ++ k1))).seq
        ((Gives.alt1 (Gives.alt2 hv0 (hv w1 k1 ha.space ha.stop))).seq hb))))
      rw [show x ++ (w ++ (0x28#8 :: r ++ s')) ++ (w' ++ k) = x ++ (w ++ (0x28#8 :: r ++ (w1 ++ k1))) by rw [← e]; simp]
      exact this
  | calls0 =>
    refine ⟨[], rfl, fun w k h => ⟨w, k, rfl, h.nstop (by omega), pplus_fail h.starts, mminus_fail h.starts, (call_fail h.starts).starNil⟩⟩
  | @calls w s c s' l hw hne hs hs' ih ih' =>
    obtain ⟨l', e', ih'⟩ := ih'
    obtain rfl : l = l' := by simpa using e'
    refine ⟨_, rfl, fun w' k h => ?_⟩
    obtain ⟨w1, k1, e, hn, _, _, hst⟩ := ih' w' k h
    obtain ⟨⟨d, r, rfl, hd⟩, ho, hcall⟩ := ih
    obtain ⟨h1, _, h2, h3, h4, h5, h6⟩ := headByte_facts d hd
    refine ⟨w, d :: r ++ (w1 ++ k1), by rw [← e]; simp, ⟨aft_of (.inl hw) (Head.cons h1) fun e => absurd e hne, (ho w1 k1 hn).value,
      fails_first _ (by decide) (by decide) h2, fails_first _ (by decide) (by decide) h3⟩,
      fails_first _ (by decide) (by decide) h5, fails_first _ (by decide) (by decide) h6, ?_⟩
    exact (hcall w1 k1 hn).starCons hst
  | @atomLit s v hs ih =>
    obtain ⟨⟨c, r, rfl, hc⟩, hn, hv⟩ := ih
    exact ⟨⟨c, r, rfl, (lit_blank c hc).2⟩, fun w k h => hn w k h.aft, fun w k h => Gives.nt (Gives.alt1 (hv w k h.aft))⟩
  | @atomFn s t w s' b hs hw hs' ih ih' =>
    obtain ⟨⟨r, rfl⟩, hl⟩ := ih
    obtain ⟨⟨r', rfl⟩, hb⟩ := ih'
    refine ⟨⟨_, _, rfl, by decide⟩, fun w' k h => not_first _ (by decide), fun w' k h => ?_⟩
    have h1 := hl w (0x3A#8 :: r' ++ (w' ++ k)) (.inl hw) (Head.cons (by decide))
    have h2 := hb w' k h.aft
    rw [assoc3]
    exact Gives.nt (Gives.alt2 (fails_first _ (by decide) (by decide) (by decide)) (Gives.alt1
      (Gives.nt (Gives.act (g := fun | .pair t b => ast2 .proto t b | v => v) ((Gives.alt1 h1).seq h2)))))
  | @atomList s t hs ih =>
    obtain ⟨⟨r, rfl⟩, hl⟩ := ih
    refine ⟨⟨_, _, rfl, by decide⟩, fun w' k h => not_first _ (by decide), fun w' k h => ?_⟩
    have h1 := hl w' k h.aft.space h.aft.stop
    exact Gives.nt (Gives.alt2 (fails_first _ (by decide) (by decide) (by decide)) (Gives.alt2
      (Gives.nt (Gives.actFail ((Gives.alt1 h1).seqFail2 h.block))) (Gives.alt1 h1)))
  | @atomCall s c hs ih =>
    obtain ⟨⟨d, r, rfl, hd⟩, ho, hc⟩ := ih
    obtain ⟨_, h1, h2, h3, h4, _⟩ := headByte_facts d hd
    refine ⟨⟨d, r, rfl, h1⟩, fun w k h => (ho w k h).not, fun w k h => ?_⟩
    exact Gives.nt (Gives.alt2 (ho w k h).value (Gives.alt2 (fails_first _ (by decide) (by decide) h4) (Gives.alt2
      (fails_first _ (by decide) (by decide) h2) (Gives.alt2 (ho w k h).extern (hc w k h)))))
  | @operand s a s' l hs hs' ih ih' =>
    obtain ⟨hb, hn, ha⟩ := ih
    obtain ⟨l', e', ih'⟩ := ih'
    obtain rfl : l = l' := by simpa using e'
    refine ⟨(atomByte_lead hb).append _, fun w k h => ?_, fun h => absurd h (by omega)⟩
    obtain ⟨w1, k1, e, hst, h5, h6, hcs⟩ := ih' w k h
    rw [List.append_assoc, e]
    have hal := Gives.act (g := fun | .pair a (.imm w) => ast2 .inc a (.imm w) | .pair a _ => a | v => v)
      ((ha w1 k1 hst).seq (opt_none (Gives.alt2 (h5.actFail (g := fun _ => .imm (pnNum 1))) (h6.actFail (g := fun _ => .imm (pnNum (-1)))))))
    exact expr_of (expr_atom hb (hn w1 k1 hst) hal) hcs rfl
  | @not sp g s e hsp hg hne hs ih =>
    obtain ⟨hl, hf, _⟩ := ih
    have hlead : Lead (chars sp ++ (g ++ s)) := by
      simp only [List.mem_cons, List.not_mem_nil, or_false] at hsp
      rcases hsp with rfl | rfl <;> exact ⟨_, _, rfl, by decide⟩
    refine ⟨hlead, fun w k h => ?_, fun h => absurd h (by omega)⟩
    have ht : Goes not (chars sp ++ (g ++ (s ++ (w ++ k)))) (s ++ (w ++ k)) := by
      obtain ⟨v, hw⟩ := wsl_ok hg (hl.wsl (w ++ k))
      simp only [List.mem_cons, List.not_mem_nil, or_false] at hsp
      rcases hsp with rfl | rfl
      · obtain ⟨b, r, rfl, hb⟩ := gap_head hg (hne rfl)
        obtain ⟨u, hu⟩ := word_ok (s := "not") (k := b :: r ++ (s ++ (w ++ k))) (Head.cons (blank_cont b hb).1)
        exact ⟨_, Gives.seq (Gives.alt2 (fails_first _ (by decide) (by decide) (by decide)) hu) hw⟩
      · exact ⟨_, Gives.seq (Gives.alt1 (lit_ok (chars "!") _)) hw⟩
    obtain ⟨v, ht⟩ := ht
    have h1 := right_ok ht (hf w k h)
    rw [assoc3]
    exact expr_of (Gives.alt1 (Gives.act (g := ast .not) h1)) (call_fail h.starts).starNil rfl
  | @bitnot g s e hg hs ih =>
    obtain ⟨hl, hf, _⟩ := ih
    refine ⟨⟨_, _, rfl, by decide⟩, fun w k h => ?_, fun h => absurd h (by omega)⟩
    obtain ⟨v, ht⟩ := t2_ok (s := "~") hg (hl.wsl (w ++ k))
    have h1 := right_ok ht (hf w k h)
    rw [assoc3]
    exact expr_of (Gives.alt2 (right_none (not_first _ (by decide))) (Gives.alt1 (Gives.act (g := ast .wavy) h1)))
      (call_fail h.starts).starNil rfl
  | @neg g s a s' l hg hs hs' ih ih' =>
    obtain ⟨hb, hn, ha⟩ := ih
    obtain ⟨l', e', ih'⟩ := ih'
    obtain rfl : l = l' := by simpa using e'
    refine ⟨⟨_, _, rfl, by decide⟩, fun w k h => ?_, fun h => absurd h (by omega)⟩
    obtain ⟨w1, k1, e, hst, _, _, hcs⟩ := ih' w k h
    obtain ⟨v, ht⟩ := t2_ok (s := "-") hg ((atomByte_lead hb).wsl (w1 ++ k1))
    obtain ⟨_, f2, _⟩ := atom_others hb (w1 ++ k1)
    have h1 := right_ok (ht.seq f2.not1) (ha w1 k1 hst)
    rw [assoc4, e]
    exact expr_of (Gives.alt2 (right_none (not_first _ (by decide))) (Gives.alt2
      (right_none (fails_first _ (by decide) (by decide) (by decide))) (Gives.alt1 (Gives.act (g := ast2 .minus (ast .value (.imm (pnNum 0)))) h1))))
      hcs rfl
  | @pos g s a s' l hg hs hs' ih ih' =>
    obtain ⟨hb, hn, ha⟩ := ih
    obtain ⟨l', e', ih'⟩ := ih'
    obtain rfl : l = l' := by simpa using e'
    refine ⟨⟨_, _, rfl, by decide⟩, fun w k h => ?_, fun h => absurd h (by omega)⟩
    obtain ⟨w1, k1, e, hst, _, _, hcs⟩ := ih' w k h
    obtain ⟨v, ht⟩ := t2_ok (s := "+") hg ((atomByte_lead hb).wsl (w1 ++ k1))
    obtain ⟨_, _, f3, _⟩ := atom_others hb (w1 ++ k1)
    have h1 := right_ok (ht.seq f3.not1) (ha w1 k1 hst)
    rw [assoc4, e]
    exact expr_of (Gives.alt2 (right_none (not_first _ (by decide))) (Gives.alt2
      (right_none (fails_first _ (by decide) (by decide) (by decide))) (Gives.alt2
      (right_none (Gives.seqFail1 (fails_first _ (by decide) (by decide) (by decide)))) (Gives.alt1
      (Gives.act (g := ast2 .plus (ast .value (.imm (pnNum 0)))) h1))))) hcs rfl
  | @preInc w0 s a s' l hw0 hs hs' ih ih' =>
    obtain ⟨hb, hn, ha⟩ := ih
    obtain ⟨l', e', ih'⟩ := ih'
    obtain rfl : l = l' := by simpa using e'
    refine ⟨⟨_, _, rfl, by decide⟩, fun w k h => ?_, fun h => absurd h (by omega)⟩
    obtain ⟨w1, k1, e, hst, _, _, hcs⟩ := ih' w k h
    obtain ⟨v, ht⟩ := t1_ok (s := "++") (blank_space (k := s ++ (w1 ++ k1)) hw0) (((atomByte_lead hb).wsl (w1 ++ k1)).mono fun c h => ⟨h.1, h.2.2⟩)
    have h1 := right_ok ht (ha w1 k1 hst)
    have hp : G (.seq plus (.not plus)) (chars "++" ++ (w0 ++ (s ++ (w1 ++ k1)))) none := by
      obtain ⟨v1, q1⟩ := t2_ok (s := "+") (k := chars "+" ++ (w0 ++ (s ++ (w1 ++ k1)))) .nil (Head.cons (by decide))
      obtain ⟨v2, q2⟩ := t2_ok (s := "+") (blank_gap hw0) ((atomByte_lead hb).wsl (w1 ++ k1))
      exact Gives.seqFail2 q1 (Gives.not2 q2)
    rw [assoc4, e]
    exact expr_of (Gives.alt2 (right_none (not_first _ (by decide))) (Gives.alt2
      (right_none (fails_first _ (by decide) (by decide) (by decide))) (Gives.alt2
      (right_none (Gives.seqFail1 (fails_first _ (by decide) (by decide) (by decide)))) (Gives.alt2
      (right_none hp) (Gives.alt2 (right_none (fails_first _ (by decide) (by decide) (by decide))) (Gives.alt1
      (Gives.act (g := fun a => ast2 .inc a (.imm (pnNum 1 ^^^ 1#64))) h1))))))) hcs rfl
  | @preDec w0 s a s' l hw0 hs hs' ih ih' =>
    obtain ⟨hb, hn, ha⟩ := ih
    obtain ⟨l', e', ih'⟩ := ih'
    obtain rfl : l = l' := by simpa using e'
    refine ⟨⟨_, _, rfl, by decide⟩, fun w k h => ?_, fun h => absurd h (by omega)⟩
    obtain ⟨w1, k1, e, hst, _, _, hcs⟩ := ih' w k h
    obtain ⟨v, ht⟩ := t1_ok (s := "--") (blank_space (k := s ++ (w1 ++ k1)) hw0) (((atomByte_lead hb).wsl (w1 ++ k1)).mono fun c h => ⟨h.1, h.2.2⟩)
    have h1 := right_ok ht (ha w1 k1 hst)
    have hp : G (.seq minus (.not minus)) (chars "--" ++ (w0 ++ (s ++ (w1 ++ k1)))) none := by
      obtain ⟨v1, q1⟩ := t2_ok (s := "-") (k := chars "-" ++ (w0 ++ (s ++ (w1 ++ k1)))) .nil (Head.cons (by decide))
      obtain ⟨v2, q2⟩ := t2_ok (s := "-") (blank_gap hw0) ((atomByte_lead hb).wsl (w1 ++ k1))
      exact Gives.seqFail2 q1 (Gives.not2 q2)
    rw [assoc4, e]
    exact expr_of (Gives.alt2 (right_none (not_first _ (by decide))) (Gives.alt2
      (right_none (fails_first _ (by decide) (by decide) (by decide))) (Gives.alt2
      (right_none hp) (Gives.alt2
      (right_none (Gives.seqFail1 (fails_first _ (by decide) (by decide) (by decide)))) (Gives.alt1
      (Gives.act (g := fun a => ast2 .inc a (.imm (pnNum (-1) ^^^ 1#64))) h1)))))) hcs rfl
  | @postInc s a w0 s' l hs hw0 hs' ih ih' =>
    obtain ⟨hb, hn, ha⟩ := ih
    obtain ⟨l', e', ih'⟩ := ih'
    obtain rfl : l = l' := by simpa using e'
    refine ⟨(atomByte_lead hb).append _, fun w k h => ?_, fun h => absurd h (by omega)⟩
    obtain ⟨w1, k1, e, hst, _, _, hcs⟩ := ih' w k h
    have hst0 : NStop w0 (chars "++" ++ (w1 ++ k1)) :=
      (⟨aft_plain (.inl hw0) (by decide), .inr (.inl ⟨chars "++", by decide +kernel, _, rfl⟩), fun h => by omega⟩ :
        Stop 11 w0 (chars "++" ++ (w1 ++ k1))).nstop (by omega)
    obtain ⟨v, ht⟩ := t1_ok (s := "++") hst.aft.space hst.aft.stop
    rw [assoc4, e]
    have hal := Gives.act (g := fun | .pair a (.imm w) => ast2 .inc a (.imm w) | .pair a _ => a | v => v)
      ((ha _ _ hst0).seq (Gives.alt1 (b := .eps) (Gives.alt1 (b := .act (fun _ => .imm (pnNum (-1))) mminus)
        (Gives.act (g := fun _ => .imm (pnNum 1)) ht))))
    exact expr_of (expr_atom hb (hn _ _ hst0) hal) hcs rfl
  | @postDec s a w0 s' l hs hw0 hs' ih ih' =>
    obtain ⟨hb, hn, ha⟩ := ih
    obtain ⟨l', e', ih'⟩ := ih'
    obtain rfl : l = l' := by simpa using e'
    refine ⟨(atomByte_lead hb).append _, fun w k h => ?_, fun h => absurd h (by omega)⟩
    obtain ⟨w1, k1, e, hst, _, _, hcs⟩ := ih' w k h
    have hst0 : NStop w0 (chars "--" ++ (w1 ++ k1)) :=
      (⟨aft_plain (.inl hw0) (by decide), .inr (.inl ⟨chars "--", by decide +kernel, _, rfl⟩), fun h => by omega⟩ :
        Stop 11 w0 (chars "--" ++ (w1 ++ k1))).nstop (by omega)
    obtain ⟨v, ht⟩ := t1_ok (s := "--") hst.aft.space hst.aft.stop
    rw [assoc4, e]
    have hp : G pplus (chars "--" ++ (w1 ++ k1)) none := fails_first _ (by decide) (by decide) (by decide)
    have hal := Gives.act (g := fun | .pair a (.imm w) => ast2 .inc a (.imm w) | .pair a _ => a | v => v)
      ((ha _ _ hst0).seq (Gives.alt1 (b := .eps) (Gives.alt2 (a := .act (fun _ => .imm (pnNum 1)) pplus) hp.actFail
        (Gives.act (g := fun _ => .imm (pnNum (-1))) ht))))
    exact expr_of (expr_atom hb (hn _ _ hst0) hal) hcs rfl
  | @up ℓ s t hℓ hs ih =>
    obtain ⟨hl, hf, _⟩ := ih
    have hch : ∀ w k l k', Stop (ℓ + 1) w k → G (.star (opAlts ℓ)) k (some (.tup l, k')) →
        ∃ x j l', G (.nt (ntOf (ℓ + 1))) (s ++ (w ++ k)) (some (x, j)) ∧ G (.star (opAlts ℓ)) j (some (.tup l', k')) ∧
          foldOps x l' = foldOps t l := fun w k l k' h1 h2 => ⟨t, k, l, hf w k h1, h2, rfl⟩
    refine ⟨hl, fun w k h => ?_, fun _ _ => hch⟩
    by_cases h1 : ℓ = 1
    · subst h1
      have := Gives.nt (n := .sets) (Gives.act (g := assigned) ((hf w k (h.mono (by omega))).seq (opt_none (h.noAsg (by omega)))))
      exact this
    · obtain ⟨x, j, l', g1, g2, g3⟩ := hch w k [] k (h.mono (by omega)) (ops_fail hℓ h1 h.starts).starNil
      have := Gives.act (g := fun | .pair x (.tup l) => foldOps x l | v => v) (g1.seq g2)
      refine Gives.nt ?_
      rw [rule_chain hℓ h1]
      simp only [g3] at this
      exact this
  | @bin s a w o sp g s' b hs hw hsp hwd hg hne hs' ih ih' =>
    obtain ⟨hl, _, hch⟩ := ih
    obtain ⟨hl', hf', _⟩ := ih'
    have ho : o.level < 10 ∧ o.level ≠ 1 := by cases o <;> decide
    have hch' : ∀ w' k l k', Stop (o.level + 1) w' k → G (.star (opAlts o.level)) k (some (.tup l, k')) →
        ∃ x j l', G (.nt (ntOf (o.level + 1))) (s ++ (w ++ (chars sp ++ (g ++ s'))) ++ (w' ++ k)) (some (x, j)) ∧
          G (.star (opAlts o.level)) j (some (.tup l', k')) ∧ foldOps x l' = foldOps (node2 o.kind a b) l := by
      intro w' k l k' h1 h2
      have hst := stop_bin hsp hw hwd hg hne (hl'.append (w' ++ k))
      have h3 := op_step hsp hg hne (hl'.wsl (w' ++ k)) (hf' w' k h1)
      obtain ⟨x, j, l', g1, g2, g3⟩ := hch ho.1 ho.2 w _ _ k' hst (h3.starCons h2)
      refine ⟨x, j, l', ?_, g2, g3⟩
      simpa only [List.append_assoc] using g1
    refine ⟨hl.append _, fun w' k h => ?_, fun _ _ => hch'⟩
    obtain ⟨x, j, l', g1, g2, g3⟩ := hch' w' k [] k (h.mono (by omega)) (ops_fail ho.1 ho.2 h.starts).starNil
    have := Gives.act (g := fun | .pair x (.tup l) => foldOps x l | v => v) (g1.seq g2)
    refine Gives.nt ?_
    rw [rule_chain ho.1 ho.2]
    simp only [g3] at this
    exact this
  | @assign s a w g s' b hs hw hg hs' ih ih' =>
    obtain ⟨hl, hf, _⟩ := ih
    obtain ⟨hl', hf', _⟩ := ih'
    refine ⟨hl.append _, fun w' k h => ?_, fun _ h => absurd rfl h⟩
    have h1 := hf w _ (stop_asg hw hg (hl'.append (w' ++ k)))
    obtain ⟨v, h2⟩ := t2_ok (s := "=") hg (hl'.wsl (w' ++ k))
    have h3 := Gives.alt1 (b := .eps) (Gives.alt1 (b := alts asgAlts.tail) (Gives.act (g := fun s => .node .assign .nil s .nil) (right_ok h2 (hf' w' k h))))
    have := Gives.nt (n := .sets) (Gives.act (g := assigned) (h1.seq h3))
    simp only [List.append_assoc] at this ⊢; exact this
  | @assignOp s a w o sp g s' b hs hw ho hsp hwd hg hs' ih ih' =>
    obtain ⟨hl, hf, _⟩ := ih
    obtain ⟨hl', hf', _⟩ := ih'
    refine ⟨hl.append _, fun w' k h => ?_, fun _ h => absurd rfl h⟩
    have h1 := hf w _ (stop_asgOp ho hsp hw hwd (g ++ (s' ++ (w' ++ k))))
    obtain ⟨v, h2⟩ := t2_ok (s := "=") hg (hl'.wsl (w' ++ k))
    obtain ⟨u, h3⟩ := tok_ok hsp (g := []) (i := chars "=" ++ (g ++ (s' ++ (w' ++ k)))) .nil (Head.cons (by decide)) (Head.cons (by decide))
    have h4 := Gives.act (g := fun s => .node o.kind .nil s .nil) (right_ok (h3.seq h2) (hf' w' k h))
    have h5 : G setAlts (chars sp ++ (chars "=" ++ (g ++ (s' ++ (w' ++ k))))) (some (.node o.kind .nil b .nil, k)) := by
      obtain ⟨post, e⟩ := asg_before o ho
      rw [setAlts_eq, e]
      refine alts_pick (fun x hx => ?_) h4
      have := fails_pre 20 (asg_fail o (mem_bins o) ho sp hsp x hx) (g ++ (s' ++ (w' ++ k)))
      simpa only [List.append_assoc] using this
    have := Gives.nt (n := .sets) (Gives.act (g := assigned) (h1.seq (Gives.alt1 (b := .eps) h5)))
    have e : assigned (.pair a (.node o.kind .nil b .nil)) = node2 .assign a (node2 o.kind a b) := by
      cases o <;> first | rfl | (simp [Bin.assigns] at ho)
    rw [e] at this
    simp only [List.append_assoc] at this ⊢; exact this
  | @one s a hs ih =>
    obtain ⟨hl, hf, _⟩ := ih
    refine ⟨hl, a, [], rfl, fun w k hc => ⟨k, k, hf w k hc.stop, ?_, _, opt_none ?_⟩⟩
    · exact Gives.starNil (right_fail1 (hc.first (by decide) (by decide) (by decide) (by decide)))
    · exact hc.first (by decide) (by decide) (by decide) (by decide)
  | @oneSep s a w sp hs hw hsp ih =>
    obtain ⟨hl, hf, _⟩ := ih
    refine ⟨hl.append _, a, [], rfl, fun w' k hc => ⟨sp ++ (w' ++ k), sp ++ (w' ++ k), ?_, ?_, ?_⟩⟩
    · have := hf w _ (stop_sep hw hsp (w' ++ k))
      simp only [List.append_assoc] at this ⊢; exact this
    · obtain ⟨v, h⟩ := sep_ok hsp hc.aft.space hc.sepStop
      exact Gives.starNil (right_fail2 h (hc.first (by decide) (by decide) (by decide) (by decide)))
    · obtain ⟨v, h⟩ := sep_ok hsp hc.aft.space hc.sepStop
      exact ⟨_, h.alt1⟩
  | @more s a w sp s' l hs hw hsp hs' ih ih' =>
    obtain ⟨hl, hf, _⟩ := ih
    obtain ⟨hl', a', l', e', ih'⟩ := ih'
    obtain rfl : l = a' :: l' := by simpa using e'
    refine ⟨hl.append _, a, _, rfl, fun w' k hc => ?_⟩
    obtain ⟨r, r', h1, h2, h3⟩ := ih' w' k hc
    refine ⟨sp ++ (s' ++ (w' ++ k)), r', ?_, ?_, h3⟩
    · have := hf w _ (stop_sep hw hsp (s' ++ (w' ++ k)))
      simp only [List.append_assoc] at this ⊢; exact this
    · obtain ⟨v, h⟩ := sep_ok hsp (w := []) (k := s' ++ (w' ++ k)) (.inl (by intro c hc; simp at hc)) (hl'.sep _)
      exact (right_ok h h1).starCons h2

end Potion.Peg
