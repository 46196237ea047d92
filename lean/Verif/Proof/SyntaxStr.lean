import Verif.Proof.SyntaxTok0
import Verif.Spec.Quoted
import Verif.Props.Strings
/-! String literals and hexadecimal numbers. -/
namespace Potion.Peg
open Potion Potion.Spec

theorem cls_ok {l : List (Nat × Nat)} {c : Byte} {k} (h : (l.any fun r => decide (r.1 ≤ c.toNat) && decide (c.toNat ≤ r.2)) = true) : G (cls l) (c :: k) (some (.none, k)) := chr_ok h
theorem cls_fail {l : List (Nat × Nat)} {c : Byte} {k} (h : (l.any fun r => decide (r.1 ≤ c.toNat) && decide (c.toNat ≤ r.2)) = false) : G (cls l) (c :: k) none :=
  ⟨1, by simp only [cls, run, h]; rfl⟩

theorem cont_ok {c : Byte} {k} (h : Continuation c) : G cont (c :: k) (some (.none, k)) := by
  refine cls_ok ?_
  obtain ⟨h1, h2⟩ := h
  simp only [List.any_cons, List.any_nil, Bool.or_false, Bool.and_eq_true, decide_eq_true_eq]
  omega

/-- A character, and how it begins. -/
theorem textChar_ok {u : List Byte} (h : TextChar u) (k) : Goes utf8 (u ++ k) k := by
  cases h with
  | ascii h => exact ⟨_, (printable_step h k).2⟩
  | newline =>
    refine ⟨.none, ?_⟩
    exact (fails_first _ (by decide) (by decide) (by decide)).alt2 ((fails_first _ (by decide) (by decide) (by decide)).alt2 ((fails_first _ (by decide) (by decide) (by decide)).alt2
      ((fails_first _ (by decide) (by decide) (by decide)).alt2 ((lit_fail fun r e => by cases e).alt2 (lit_ok [10#8] k).alt1))))
  | @two a b h1 h2 h3 =>
    refine ⟨.pair .none .none, ?_⟩
    refine (cls_fail ?_).alt2 (Gives.alt1 ((cls_ok ?_).seq (cont_ok h3)))
    all_goals simp; omega
  | @three a b c h1 h2 h3 h4 =>
    refine ⟨.pair .none (.pair .none .none), ?_⟩
    refine (cls_fail ?_).alt2 ((Gives.seqFail1 (cls_fail ?_)).alt2 (Gives.alt1 ((cls_ok ?_).seq ((cont_ok h3).seq (cont_ok h4)))))
    all_goals simp; omega
  | @four a b c d h1 h2 h3 h4 h5 =>
    refine ⟨.pair .none (.pair .none (.pair .none .none)), ?_⟩
    refine (cls_fail ?_).alt2 ((Gives.seqFail1 (cls_fail ?_)).alt2 ((Gives.seqFail1 (cls_fail ?_)).alt2 (Gives.alt1 ((cls_ok ?_).seq ((cont_ok h3).seq ((cont_ok h4).seq (cont_ok h5)))))))
    all_goals simp; omega

/-- The first byte tells an ASCII character. -/
theorem textChar_head {u : List Byte} (h : TextChar u) {c : Byte} (hc : c.toNat < 128) (hu : u ≠ [c]) {k r : List Byte} : u ++ k ≠ c :: r := by
  intro e
  cases h with
  | ascii h => exact hu (by rw [(List.cons.inj e).1])
  | newline => exact hu (by rw [(List.cons.inj e).1])
  | two h1 h2 h3 => have := (List.cons.inj e).1; subst this; omega
  | three h1 h2 h3 => have := (List.cons.inj e).1; subst this; omega
  | four h1 h2 h3 => have := (List.cons.inj e).1; subst this; omega

theorem textChar_ne {u : List Byte} (h : TextChar u) : u ≠ [] := by cases h <;> simp

/-! ### `'text'` -/

abbrev plain1 : PExp := .seq (.not q1) utf8
abbrev body1 : PExp := .alt (.act (fun _ => .str (ascii "'")) (.seq q1 q1)) c1

theorem single_ok {k} (hk : Head (fun c => contChar c = false) k) {s v} (h : Single s v) :
    (∃ t, G (.star body1) (s ++ 0x27#8 :: k) (some (.tup t, 0x27#8 :: k)) ∧ pieces t = some v) ∧
    ∃ u s2 v2 t, s = u ++ s2 ∧ v = u ++ v2 ∧ Goes (.star plain1) (s ++ 0x27#8 :: k) (s2 ++ 0x27#8 :: k) ∧
      G (.star body1) (s2 ++ 0x27#8 :: k) (some (.tup t, 0x27#8 :: k)) ∧ pieces t = some v2 := by
  have q : ∀ k, G q1 (0x27#8 :: k) (some (.none, k)) := fun k => lit_ok [0x27#8] k
  have qf : G q1 k none := lit_fail fun r => cont_ne hk (by decide) r
  have stop : ∀ k, G plain1 (0x27#8 :: k) none := fun k => (q k).not2.seqFail1
  induction h with
  | nil =>
    have last : G (.star body1) (0x27#8 :: k) (some (.tup [], 0x27#8 :: k)) := Gives.starNil (((q k).seqFail2 qf).actFail.alt2 (stop k).seqFail1.capFail)
    exact ⟨⟨[], last, rfl⟩, [], [], [], [], rfl, rfl, ⟨_, (stop k).starNil⟩, last, rfl⟩
  | @char u s v hu hne _ ih =>
    obtain ⟨-, u2, s2, v2, t, rfl, rfl, h1, h2, h3⟩ := ih
    obtain ⟨x, hx⟩ := textChar_ok hu (u2 ++ s2 ++ 0x27#8 :: k)
    have hq : ∀ x, G q1 (u ++ x) none := fun x => lit_fail fun r => textChar_head hu (by decide) hne
    have st : G plain1 (u ++ (u2 ++ s2 ++ 0x27#8 :: k)) (some (.pair .none x, u2 ++ s2 ++ 0x27#8 :: k)) := Gives.seq (hq _).not1 hx
    refine ⟨⟨.str (u ++ u2) :: t, ?_, by simp [pieces, h3]⟩, u ++ u2, s2, v2, t, by simp, by simp, ?_, h2, h3⟩
    · obtain ⟨y, hy⟩ := h1
      have h4 : G (.seq plain1 (.star plain1)) ((u ++ u2) ++ (s2 ++ 0x27#8 :: k)) (some (.pair (.pair .none x) y, s2 ++ 0x27#8 :: k)) := by
        have := st.seq hy
        simpa only [List.append_assoc] using this
      have h5 : G c1 ((u ++ u2) ++ (s2 ++ 0x27#8 :: k)) (some (.str (u ++ u2), s2 ++ 0x27#8 :: k)) := Gives.cap h4
      have h6 : G body1 ((u ++ u2) ++ (s2 ++ 0x27#8 :: k)) (some (.str (u ++ u2), s2 ++ 0x27#8 :: k)) := by
        refine Gives.alt2 (Gives.actFail (Gives.seqFail1 ?_)) h5
        rw [List.append_assoc]; exact hq _
      have := h6.starCons h2
      simpa only [List.append_assoc] using this
    · have := Goes.step st h1
      simpa only [List.append_assoc] using this
  | @quote s v _ ih =>
    obtain ⟨⟨t, h1, h2⟩, -⟩ := ih
    have h3 : G body1 (0x27#8 :: 0x27#8 :: (s ++ 0x27#8 :: k)) (some (.str [0x27#8], s ++ 0x27#8 :: k)) :=
      Gives.alt1 (Gives.act (g := fun _ => .str (ascii "'")) ((q _).seq (q _)))
    have h4 := h3.starCons h1
    exact ⟨⟨_, h4, by simp [pieces, h2]⟩, [], _, _, _, rfl, rfl, ⟨_, (stop _).starNil⟩, h4, by simp [pieces, h2]⟩

theorem str1_ok {s v k} (h : Single s v) (hk : Head (fun c => contChar c = false) k) :
    G str1 (0x27#8 :: (s ++ 0x27#8 :: k)) (some (.str v, k)) := by
  obtain ⟨⟨t, h1, h2⟩, -⟩ := single_ok hk h
  have := Gives.act (g := joined) (left_ok (right_ok (lit_ok [0x27#8] (s ++ 0x27#8 :: k)) h1) (lit_ok [0x27#8] k))
  rw [joined, h2] at this
  exact this

/-! ### `"text"` -/

abbrev plain2 : PExp := .seq (.not q2) (.seq (.not esc) utf8)
abbrev body2 : PExp := alts [
  escape "\"" 34#8, escape "n" 10#8, escape "b" 8#8, escape "f" 12#8, escape "r" 13#8, escape "t" 9#8,
  .act (escText Str.escu) (right esc (right (tok "u") (.cap (.seq hexl (.seq hexl (.seq hexl hexl)))))),
  .act (escText Str.escU) (right esc (right (tok "U{") (left (.cap (plus1 hexl)) (tok "}")))),
  right esc (.cap utf8), c2]

theorem esc_none {x : String} {b c : Byte} {i k : List Byte} (hx : ascii x = [b]) (hi : i = 0x5C#8 :: k) (hk : ∀ r, k ≠ b :: r) : G (escape x c) i none := by
  subst hi
  refine Gives.actFail (Gives.seqFail2 (lit_ok [0x5C#8] k) ?_)
  unfold tok; rw [hx]; exact lit_fail fun r => hk r
theorem esc_some {x : String} {b c : Byte} {k : List Byte} (hx : ascii x = [b]) : G (escape x c) (0x5C#8 :: b :: k) (some (.str [c], k)) := by
  refine Gives.act (g := fun _ => .str [c]) (v := .pair .none .none) (Gives.seq (lit_ok [0x5C#8] (b :: k)) ?_)
  unfold tok; rw [hx]; exact lit_ok [b] k
theorem esc_first {i : List Byte} (h : ∀ r, i ≠ 0x5C#8 :: r) {x c} : G (escape x c) i none := Gives.actFail (Gives.seqFail1 (lit_fail fun r => h r))
theorem right_esc {i : List Byte} (h : ∀ r, i ≠ 0x5C#8 :: r) {e} : G (right esc e) i none := right_fail1 (lit_fail fun r => h r)

/-- A piece that is no escape. -/
theorem body2_plain {i r} (h : ∀ r, i ≠ 0x5C#8 :: r) (hc : G c2 i r) : G body2 i r :=
  (esc_first h).alt2 ((esc_first h).alt2 ((esc_first h).alt2 ((esc_first h).alt2 ((esc_first h).alt2 ((esc_first h).alt2
    ((right_esc h).actFail.alt2 ((right_esc h).actFail.alt2 ((right_esc h).alt2 hc))))))))

/-- Past the escapes of one character. -/
theorem body2_past {k r} (hk : ∀ c d, (c, d) ∈ escapes → ∀ r, k ≠ c :: r) (h : G (alts [.act (escText Str.escu) (right esc (right (tok "u") (.cap (.seq hexl (.seq hexl (.seq hexl hexl)))))),
    .act (escText Str.escU) (right esc (right (tok "U{") (left (.cap (plus1 hexl)) (tok "}")))), right esc (.cap utf8), c2]) (0x5C#8 :: k) r) : G body2 (0x5C#8 :: k) r :=
  (esc_none (b := 0x22#8) rfl rfl (hk _ 0x22#8 (by decide))).alt2 ((esc_none (b := 0x6E#8) rfl rfl (hk _ 0x0A#8 (by decide))).alt2 ((esc_none (b := 0x62#8) rfl rfl (hk _ 0x08#8 (by decide))).alt2
    ((esc_none (b := 0x66#8) rfl rfl (hk _ 0x0C#8 (by decide))).alt2 ((esc_none (b := 0x72#8) rfl rfl (hk _ 0x0D#8 (by decide))).alt2 ((esc_none (b := 0x74#8) rfl rfl (hk _ 0x09#8 (by decide))).alt2 h)))))

theorem body2_escape {c d k} (h : (c, d) ∈ escapes) : G body2 (0x5C#8 :: c :: k) (some (.str [d], k)) := by
  have ne : ∀ {x : String} {b e : Byte}, ascii x = [b] → c ≠ b → G (escape x e) (0x5C#8 :: c :: k) none := fun hx hn =>
    esc_none hx rfl fun r e => hn (List.cons.inj e).1
  simp only [escapes, List.mem_cons, Prod.mk.injEq, List.not_mem_nil, or_false] at h
  rcases h with ⟨rfl, rfl⟩ | ⟨rfl, rfl⟩ | ⟨rfl, rfl⟩ | ⟨rfl, rfl⟩ | ⟨rfl, rfl⟩ | ⟨rfl, rfl⟩
  · exact (esc_some (b := 0x22#8) rfl).alt1
  · exact (ne (b := 0x22#8) rfl (by decide)).alt2 (esc_some (b := 0x6E#8) rfl).alt1
  · exact (ne (b := 0x22#8) rfl (by decide)).alt2 ((ne (b := 0x6E#8) rfl (by decide)).alt2 (esc_some (b := 0x62#8) rfl).alt1)
  · exact (ne (b := 0x22#8) rfl (by decide)).alt2 ((ne (b := 0x6E#8) rfl (by decide)).alt2 ((ne (b := 0x62#8) rfl (by decide)).alt2 (esc_some (b := 0x66#8) rfl).alt1))
  · exact (ne (b := 0x22#8) rfl (by decide)).alt2 ((ne (b := 0x6E#8) rfl (by decide)).alt2 ((ne (b := 0x62#8) rfl (by decide)).alt2 ((ne (b := 0x66#8) rfl (by decide)).alt2
      (esc_some (b := 0x72#8) rfl).alt1)))
  · exact (ne (b := 0x22#8) rfl (by decide)).alt2 ((ne (b := 0x6E#8) rfl (by decide)).alt2 ((ne (b := 0x62#8) rfl (by decide)).alt2 ((ne (b := 0x66#8) rfl (by decide)).alt2
      ((ne (b := 0x72#8) rfl (by decide)).alt2 (esc_some (b := 0x74#8) rfl).alt1))))

theorem hexl_ok {d : Nat} {c : Byte} (h : HexChar d c) (k) : G hexl (c :: k) (some (.none, k)) := by
  refine cls_ok ?_
  simp only [List.any_cons, List.any_nil, Bool.or_false, Bool.or_eq_true, Bool.and_eq_true, decide_eq_true_eq]
  unfold HexChar at h; omega

/-- The number written. -/
theorem atoi_nat {ds : List Nat} {cs : List Byte} (h : List.Forall₂ HexChar ds cs) (hn : numeral 16 ds < 2 ^ 62) : (Dec.atoi cs 16).toNat = numeral 16 ds := by
  rw [Dec.atoi_plain 16 h]
  unfold Dec.wrap
  rw [Int.bmod_eq_of_le] <;> omega

theorem hexls_ok {ds : List Nat} {cs : List Byte} (h : List.Forall₂ HexChar ds cs) {k} (hk : G hexl k none) : Goes (.star hexl) (cs ++ k) k := by
  induction h with
  | nil => exact ⟨_, hk.starNil⟩
  | cons h1 _ ih => exact Goes.step (hexl_ok h1 _) ih

theorem scalar_lt {n : Nat} (h : Scalar n) : n < 2 ^ 62 := by unfold Scalar at h; omega

theorem bytes_inj : ∀ {s t : List Byte}, s.map BitVec.toNat = t.map BitVec.toNat → s = t := fun h => List.map_injective_iff.2 (fun _ _ => BitVec.eq_of_toNat_eq) h

theorem double_ok {k} {s v} (h : Double s v) :
    (∃ t, G (.star body2) (s ++ 0x22#8 :: k) (some (.tup t, 0x22#8 :: k)) ∧ pieces t = some v) ∧
    ∃ u s2 v2 t, s = u ++ s2 ∧ v = u ++ v2 ∧ Goes (.star plain2) (s ++ 0x22#8 :: k) (s2 ++ 0x22#8 :: k) ∧
      G (.star body2) (s2 ++ 0x22#8 :: k) (some (.tup t, 0x22#8 :: k)) ∧ pieces t = some v2 := by
  have stop : ∀ k, G plain2 (0x22#8 :: k) none := fun k => (lit_ok [0x22#8] k).not2.seqFail1
  have back : ∀ k, G plain2 (0x5C#8 :: k) none := fun k => (Gives.not1 (lit_fail fun r e => by cases e)).seqFail2 ((lit_ok [0x5C#8] k).not2.seqFail1)
  -- an escape
  have piece : ∀ {i s v w}, G body2 (0x5C#8 :: i ++ (s ++ 0x22#8 :: k)) (some (.str w, s ++ 0x22#8 :: k)) →
      (∃ t, G (.star body2) (s ++ 0x22#8 :: k) (some (.tup t, 0x22#8 :: k)) ∧ pieces t = some v) →
      (∃ t, G (.star body2) (0x5C#8 :: i ++ s ++ 0x22#8 :: k) (some (.tup t, 0x22#8 :: k)) ∧ pieces t = some (w ++ v)) ∧
      ∃ u s2 v2 t, 0x5C#8 :: i ++ s = u ++ s2 ∧ w ++ v = u ++ v2 ∧ Goes (.star plain2) (0x5C#8 :: i ++ s ++ 0x22#8 :: k) (s2 ++ 0x22#8 :: k) ∧
        G (.star body2) (s2 ++ 0x22#8 :: k) (some (.tup t, 0x22#8 :: k)) ∧ pieces t = some v2 := by
    rintro i s v w h1 ⟨t, h2, h3⟩
    have h4 := h1.starCons h2
    rw [← List.append_assoc] at h4
    exact ⟨⟨_, h4, by simp [pieces, h3]⟩, [], _, _, _, rfl, rfl, ⟨_, (back _).starNil⟩, h4, by simp [pieces, h3]⟩
  induction h with
  | nil =>
    have last : G (.star body2) (0x22#8 :: k) (some (.tup [], 0x22#8 :: k)) :=
      Gives.starNil (body2_plain (fun r e => by cases e) (stop k).seqFail1.capFail)
    exact ⟨⟨[], last, rfl⟩, [], [], [], [], rfl, rfl, ⟨_, (stop k).starNil⟩, last, rfl⟩
  | @char u s v hu hne hne' _ ih =>
    obtain ⟨-, u2, s2, v2, t, rfl, rfl, h1, h2, h3⟩ := ih
    obtain ⟨x, hx⟩ := textChar_ok hu (u2 ++ s2 ++ 0x22#8 :: k)
    have hq : ∀ x, G q2 (u ++ x) none := fun x => lit_fail fun r => textChar_head hu (by decide) hne
    have hb : ∀ x r, u ++ x ≠ 0x5C#8 :: r := fun x r => textChar_head hu (by decide) hne'
    have st : G plain2 (u ++ (u2 ++ s2 ++ 0x22#8 :: k)) (some (.pair .none (.pair .none x), u2 ++ s2 ++ 0x22#8 :: k)) :=
      Gives.seq (hq _).not1 (Gives.seq (Gives.not1 (lit_fail fun r => hb _ r)) hx)
    refine ⟨⟨.str (u ++ u2) :: t, ?_, by simp [pieces, h3]⟩, u ++ u2, s2, v2, t, by simp, by simp, ?_, h2, h3⟩
    · obtain ⟨y, hy⟩ := h1
      have h4 : G (.seq plain2 (.star plain2)) ((u ++ u2) ++ (s2 ++ 0x22#8 :: k)) (some (.pair (.pair .none (.pair .none x)) y, s2 ++ 0x22#8 :: k)) := by
        have := st.seq hy
        simpa only [List.append_assoc] using this
      have h5 : G c2 ((u ++ u2) ++ (s2 ++ 0x22#8 :: k)) (some (.str (u ++ u2), s2 ++ 0x22#8 :: k)) := Gives.cap h4
      have h6 : G body2 ((u ++ u2) ++ (s2 ++ 0x22#8 :: k)) (some (.str (u ++ u2), s2 ++ 0x22#8 :: k)) := by
        refine body2_plain (fun r => ?_) h5
        rw [List.append_assoc]; exact hb _ r
      have := h6.starCons h2
      simpa only [List.append_assoc] using this
    · have := Goes.step st h1
      simpa only [List.append_assoc] using this
  | @escape c d s v hc _ ih => exact piece (i := [c]) (w := [d]) (body2_escape hc) ih.1
  | @code4 ds cs t s v hd hl hs hx ht _ ih =>
    refine piece (i := 0x75#8 :: cs) (w := t) ?_ ih.1
    have hn : numeral 16 ds < 0x10000 := by
      have : ∀ {ds : List Nat} {cs : List Byte}, List.Forall₂ HexChar ds cs → numeral 16 ds < 16 ^ ds.length := by
        intro ds cs h
        induction h with
        | nil => simp [numeral]
        | @cons d c ds cs h1 _ ih =>
          have : d < 16 := by unfold HexChar at h1; omega
          rw [numeral, List.length_cons, Nat.pow_succ]
          have := Nat.mul_le_mul_right (16 ^ ds.length) (show d ≤ 15 by omega)
          omega
      have := this hd
      rw [hl] at this; omega
    obtain ⟨bs, h1, h2⟩ := Props.C20_escape_u_partial _ hs hn (by
      simp only [List.mem_cons, List.not_mem_nil, or_false, not_or] at hx
      unfold Props.escExceptions; simp; omega)
    obtain rfl := bytes_inj (h2.trans ht.symm)
    refine body2_past (fun c d hc r e => ?_) (Gives.alt1 ?_)
    · rw [← (List.cons.inj e).1] at hc
      simp [escapes] at hc
    · have h3 : G (.cap (.seq hexl (.seq hexl (.seq hexl hexl)))) (cs ++ (s ++ 0x22#8 :: k)) (some (.str cs, s ++ 0x22#8 :: k)) := by
        refine Gives.cap (v := .pair .none (.pair .none (.pair .none .none))) ?_
        cases hd with
        | nil => simp at hl
        | cons a hd =>
          cases hd with
          | nil => simp at hl
          | cons b hd =>
            cases hd with
            | nil => simp at hl
            | cons c hd =>
              cases hd with
              | nil => simp at hl
              | cons d hd =>
                cases hd with
                | nil => exact (hexl_ok a _).seq ((hexl_ok b _).seq ((hexl_ok c _).seq (hexl_ok d _)))
                | cons => simp at hl
      have := Gives.act (g := escText Str.escu) (right_ok (lit_ok [0x5C#8] _) (right_ok (lit_ok [0x75#8] _) h3))
      rw [escText, atoi_nat hd (by omega), h1] at this
      exact this
  | @code ds cs t s v hd hl hs hx ht _ ih =>
    have := piece (i := 0x55#8 :: 0x7B#8 :: (cs ++ [0x7D#8])) (w := t) (s := s) (v := v) ?_ ih.1
    · simpa only [List.cons_append, List.append_assoc, List.nil_append] using this
    obtain ⟨bs, h1, h2⟩ := Props.C20_escape_U_partial _ hs (by
      simp only [List.mem_cons, List.not_mem_nil, or_false, not_or] at hx
      unfold Props.escExceptions; simp; omega)
    obtain rfl := bytes_inj (h2.trans ht.symm)
    refine body2_past (fun c d hc r e => ?_) (Gives.alt2 ?_ (Gives.alt1 ?_))
    · rw [← (List.cons.inj e).1] at hc
      simp [escapes] at hc
    · exact (right_fail2 (lit_ok [0x5C#8] _) (right_fail1 (lit_fail fun r e => by cases e))).actFail
    · have h3 : G (.cap (plus1 hexl)) (cs ++ (0x7D#8 :: (s ++ 0x22#8 :: k))) (some (.str cs, 0x7D#8 :: (s ++ 0x22#8 :: k))) := by
        have hf : G hexl (0x7D#8 :: (s ++ 0x22#8 :: k)) none := cls_fail (by decide)
        cases hd with
        | nil => exact absurd rfl hl
        | cons a hd =>
          obtain ⟨y, hy⟩ := hexls_ok hd hf
          exact Gives.cap ((hexl_ok a _).seq hy)
      have := Gives.act (g := escText Str.escU) (right_ok (lit_ok [0x5C#8] _) (right_ok (lit_ok [0x55#8, 0x7B#8] _) (left_ok h3 (lit_ok [0x7D#8] _))))
      rw [escText, atoi_nat hd (scalar_lt hs), h1] at this
      have e : 0x5C#8 :: (0x55#8 :: 0x7B#8 :: (cs ++ [0x7D#8])) ++ (s ++ 0x22#8 :: k) = [0x5C#8] ++ ([0x55#8, 0x7B#8] ++ (cs ++ 0x7D#8 :: (s ++ 0x22#8 :: k))) := by simp
      show G _ (0x5C#8 :: (0x55#8 :: 0x7B#8 :: (cs ++ [0x7D#8])) ++ (s ++ 0x22#8 :: k)) _
      rw [e]
      exact this
  | @other u s v hu hn h1 h2 _ ih =>
    refine piece (i := u) (w := u) ?_ ih.1
    obtain ⟨x, hx⟩ := textChar_ok hu (s ++ 0x22#8 :: k)
    have small : ∀ c d : Byte, (c, d) ∈ escapes → c.toNat < 128 := by
      intro c d h
      have : ∀ p ∈ escapes, p.1.toNat < 128 := by decide
      exact this _ h
    refine body2_past (fun c d hc r => textChar_head hu (small c d hc) (hn c d hc)) (Gives.alt2 ?_ (Gives.alt2 ?_ (Gives.alt1 ?_)))
    · exact (right_fail2 (lit_ok [0x5C#8] _) (right_fail1 (lit_fail fun r => textChar_head hu (by decide) h1))).actFail
    · exact (right_fail2 (lit_ok [0x5C#8] _) (right_fail1 (lit_fail fun r => textChar_head hu (by decide) h2))).actFail
    · exact right_ok (lit_ok [0x5C#8] _) (Gives.cap hx)

theorem str2_ok {s v} (h : Double s v) (k) : G str2 (0x22#8 :: (s ++ 0x22#8 :: k)) (some (.str v, k)) := by
  obtain ⟨⟨t, h1, h2⟩, -⟩ := double_ok (k := k) h
  have := Gives.act (g := joined) (left_ok (right_ok (lit_ok [0x22#8] (s ++ 0x22#8 :: k)) h1) (lit_ok [0x22#8] k))
  rw [joined, h2] at this
  exact this

/-! ### `0x12AB` -/

theorem hex_ok {ds : List Nat} {cs : List Byte} (hd : List.Forall₂ HexChar ds cs) (hn : ds ≠ []) {k} (hk : Head (fun c => contChar c = false) k) :
    G hex (chars "0x" ++ (cs ++ k)) (some (.str cs, k)) := by
  have hf : G hexl k none := by
    cases k with
    | nil => exact fails_nil (by decide) (by decide)
    | cons c k =>
      have : ∀ c : Byte, contChar c = false → mayStart nulls firsts c hexl = false := by decide +kernel
      exact fails_first _ (by decide) (by decide) (this c (hk c k rfl))
  refine right_ok (lit_ok (chars "0x") _) ?_
  cases hd with
  | nil => exact absurd rfl hn
  | cons a hd =>
    obtain ⟨y, hy⟩ := hexls_ok hd hf
    exact Gives.cap ((hexl_ok a _).seq hy)

end Potion.Peg
