import Verif.Proof.GregActs6
namespace Potion.Greg
open Potion.Peg (PExp NT Tree Kind)

section
variable {P : Nat → List Byte → Bool} {inp : List Byte} {f : Nat}
local notation "Ev'" => Eval potionGrammar P inp
local notation "Run'" => Runs runAct inp
variable {r : Nat} {pos p : Nat} {m m' : Marks} {evs : List Ev} {env : Env} {envs : List Env} {y : Val} {s s' : List Env × Val} {t : Tree} {i : List Byte} {q : PExp}

/-! ### Numbers -/

theorem sequ_app_fail : ∀ {es rest : List Exp} {pos m}, Ev' r (sequ (es ++ rest)) pos m (.fail m') →
    Ev' r (sequ es) pos m (.fail m') ∨ ∃ p1 ev1 m1, Ev' r (sequ es) pos m (.ok p1 ev1 m1) ∧ Ev' r (sequ rest) p1 m1 (.fail m')
  | [], rest, pos, m, h => .inr ⟨pos, [], m, .seqNil, h⟩
  | e :: es, rest, pos, m, h => by
    cases h with
    | seqFail h => exact .inl (.seqFail h)
    | seqFail2 h1 h2 =>
      rcases sequ_app_fail (es := es) (rest := rest) h2 with h3 | ⟨p1, ev1, m1, h3, h4⟩
      · exact .inl (.seqFail2 h1 h3)
      · exact .inr ⟨_, _, _, .seqOk h1 h3, h4⟩

theorem act_no_fail {a : Nat} (h : Ev' r (sequ [.act a]) pos m (.fail m')) : False := by
  cases h with
  | seqFail h => cases h
  | seqFail2 _ h => cases h

/-- `(l { $$ = YY_TDBL })?` -/
theorem dec_opt {l : List Exp} {a : Nat} (hq : (sequ l).quiet isQuiet = true) (ha : ∀ t env y, runAct a t env y = ret YY_TDBL env y)
    (h : Ev' r (.opt (sequ (l ++ [.act a]))) pos m (.ok p evs m')) (hx : Run' evs (env :: envs, y) s') :
    m' = m ∧ (((∃ m1, Ev' r (sequ (l ++ [.act a])) pos m (.fail m1)) ∧ p = pos ∧ s' = (env :: envs, y)) ∨
      (Ev' r (sequ (l ++ [.act a])) pos m (.ok p evs m') ∧ s' = (env :: envs, (YY_TDBL, y.2)))) := by
  cases h with
  | optSome h =>
    obtain ⟨p1, ev1, m1, ev2, h1, h2, rfl⟩ := sequ_app h
    obtain ⟨s1, hx1, hx2⟩ := runs_app hx
    have e1 := (quiet_marks h1 hq).1 _ _ _ rfl
    have e2 := quiet_runs h1 hq _ _ _ rfl _ _ hx1
    subst e1 e2
    obtain ⟨ev3, txt, h3, _, hx3⟩ := seq_act h2 hx2
    obtain ⟨-, e3, rfl⟩ := seq_end h3 hx3
    refine ⟨e3, .inr ⟨h, ?_⟩⟩
    rw [ha]; rfl
  | optNone h =>
    cases hx
    rcases sequ_app_fail h with h1 | ⟨p1, ev1, m1, h1, h2⟩
    · exact ⟨(quiet_marks h1 hq).2 _ rfl, .inl ⟨⟨_, h⟩, rfl, rfl⟩⟩
    · exact (act_no_fail h2).elim

def decE : Exp := choice [.chr 0x30, sequ [.opt (.chr 0x2D), .cls [0x31, 0x2D, 0x39], .star (.cls [0x30, 0x2D, 0x39])]]
def fracL : List Exp := [.chr 0x2E, .plus (.cls [0x30, 0x2D, 0x39])]
def expL : List Exp := [.chr 0x65, .cls [0x2D, 0x2B], .plus (.cls [0x30, 0x2D, 0x39])]

theorem S.digit : Same (.cls [0x30, 0x2D, 0x39]) Peg.digit := .norm 0 (by decide +kernel)
theorem S.digit1 : Same (.cls [0x31, 0x2D, 0x39]) (Peg.cls [(49, 57)]) := .norm 0 (by decide +kernel)
theorem S.sign : Same (.cls [0x2D, 0x2B]) (.alt (Peg.tok "-") (Peg.tok "+")) := .norm 0 (by decide +kernel)
theorem S.decE : Same decE Peg.decInt := .alt (.chr rfl) (.alt1 (.seq (.opt (.chr rfl)) (.seq S.digit1 (.last (.star S.digit) .eps))))
theorem S.frac : Same (sequ (fracL ++ [.act 98])) Peg.decFrac := .seq (.chr rfl) (.last (.plus S.digit) (.act .eps))
theorem S.exp : Same (sequ (expL ++ [.act 99])) Peg.decExp := .seq (.chr rfl) (.seq S.sign (.last (.plus S.digit) (.act .eps)))

theorem R.alt_none {a b} (h : R f (.alt a b) i none) : R f a i none ∧ R f b i none := by
  rcases h.alt with ⟨_, e, _⟩ | h
  · cases e
  · exact h

theorem number_dv : Dv P inp f (sequ [.name R.dec_ none, .act 96], Peg.number) := by
  intro r pos m p evs m' t i env envs y s' hp h hR hx
  obtain ⟨p1, ev1, m1, ev2, h1, h2, rfl⟩ := seq_inv h
  obtain ⟨s1, hx1, hx2⟩ := runs_app hx
  obtain ⟨ru, ev3, hr, h3, rfl⟩ := name_inv h1
  cases hr
  have h4 := seq_open h3
  -- What is read.
  obtain ⟨pa, eva, evb, hpa, ha, h5, hx'⟩ : ∃ pa eva evb, pa ≤ inp.length ∧ Ev' R.dec_ decE pos { m with b := pos } (.ok pa eva { m with b := pos }) ∧
      Ev' R.dec_ (sequ [.act 97, .opt (sequ (fracL ++ [.act 98])), .opt (sequ (expL ++ [.act 99])), .close]) pa { m with b := pos } (.ok p1 evb m1) ∧ ev3 = eva ++ evb := by
    obtain ⟨pa, eva, ma, evb, ha, hb, rfl⟩ := seq_inv h4
    have e1 := (quiet_marks ha (by decide +kernel)).1 _ _ _ rfl
    subst e1
    exact ⟨pa, eva, evb, (moves ha).2 hp, ha, hb, rfl⟩
  subst hx'
  have hlt : pos < pa := moves1 ha (by decide +kernel)
  -- The rest.
  obtain ⟨y1, ⟨hm, hy⟩, rfl⟩ := run_name (K := fun y1 => m1 = ⟨pos, p1, m.errs⟩ ∧ y1.2 = y.2 ∧
      ((p1 = pa ∧ y1.1 = YY_TINT ∧ (∃ m2, Ev' R.dec_ (sequ (fracL ++ [.act 98])) pa { m with b := pos } (.fail m2)) ∧
          ∃ m2, Ev' R.dec_ (sequ (expL ++ [.act 99])) pa { m with b := pos } (.fail m2)) ∨
        (y1.1 = YY_TDBL ∧ pa ≤ p1 ∧ p1 ≤ inp.length ∧ ((∃ p2 ev m2, Ev' R.dec_ (sequ (fracL ++ [.act 98])) pa { m with b := pos } (.ok p2 ev m2)) ∨
          ∃ p2 ev m2, Ev' R.dec_ (sequ (expL ++ [.act 99])) pa { m with b := pos } (.ok p2 ev m2))))) hx1 (by
    intro env0 s1 hx3
    obtain ⟨s2, hx4, hx5⟩ := runs_app hx3
    have e2 := quiet_runs ha (by decide +kernel) _ _ _ rfl _ _ hx4
    subst e2
    obtain ⟨ev4, txt, h6, _, hx6⟩ := seq_act h5 hx5
    obtain ⟨p3, ev5, m3, ev6, h7, h8, rfl⟩ := seq_inv h6
    obtain ⟨s3, hx7, hx8⟩ := runs_app hx6
    obtain ⟨rfl, h9⟩ := dec_opt (l := fracL) (by decide +kernel) (fun _ _ _ => rfl) h7 hx7
    obtain ⟨p4, ev7, m4, ev8, h10, h11, rfl⟩ := seq_inv h8
    obtain ⟨s4, hx9, hx10⟩ := runs_app hx8
    have mv1 := moves h7
    have mv2 := moves h10
    have h12 := seq_close h11
    obtain ⟨e4, e5, rfl⟩ := seq_end h12 hx10
    subst e4
    rcases h9 with ⟨hf, rfl, rfl⟩ | ⟨hf, rfl⟩
    · obtain ⟨rfl, h13⟩ := dec_opt (l := expL) (by decide +kernel) (fun _ _ _ => rfl) h10 hx9
      rcases h13 with ⟨he, rfl, rfl⟩ | ⟨he, rfl⟩
      · exact ⟨_, _, rfl, e5, rfl, .inl ⟨rfl, rfl, hf, he⟩⟩
      · exact ⟨_, _, rfl, e5, rfl, .inr ⟨rfl, by omega, by omega, .inr ⟨_, _, _, he⟩⟩⟩
    · obtain ⟨rfl, h13⟩ := dec_opt (l := expL) (by decide +kernel) (fun _ _ _ => rfl) h10 hx9
      rcases h13 with ⟨he, rfl, rfl⟩ | ⟨he, rfl⟩
      · exact ⟨_, _, rfl, e5, rfl, .inr ⟨rfl, by omega, by omega, .inl ⟨_, _, _, hf⟩⟩⟩
      · exact ⟨_, _, rfl, e5, rfl, .inr ⟨rfl, by omega, by omega, .inl ⟨_, _, _, hf⟩⟩⟩)
  subst hm
  obtain ⟨ev9, txt, h14, ht, hx9⟩ := seq_act h2 hx2
  obtain ⟨-, -, rfl⟩ := seq_end h14 hx9
  have hR0 : R f (.alt _ _) _ _ := hR
  refine ⟨_, _, rfl, ?_, fun _ => by show y1.2.failed = _; rw [hy.1]⟩
  show Fits t (decValue y1.1 txt)
  rcases hR0.alt with ⟨z, e, hR1⟩ | ⟨hR1, hR2⟩
  · cases e
    obtain ⟨t1, hR3, rfl⟩ := hR1.act
    obtain ⟨t2, i2, t3, hR4, hR5, rfl⟩ := hR3.seq
    obtain ⟨t4, hR6, rfl⟩ := hR4.cap
    cases same_some S.decE ha hR6
    obtain ⟨hR7, -, -⟩ := hR5.not
    obtain ⟨hR8, hR9⟩ := hR7.alt_none
    rcases hy.2 with ⟨rfl, e1, -, -⟩ | ⟨-, -, -, ⟨_, _, _, h⟩ | ⟨_, _, _, h⟩⟩
    · have : txt = slice inp pos p1 := ht (by show p1 ≠ 0; omega)
      subst this
      rw [e1, slice_take (by omega) hpa]
      exact .imm
    · exact (same_not2 S.frac h hR8).elim
    · exact (same_not2 S.exp h hR9).elim
  · obtain ⟨t1, hR3, rfl⟩ := hR2.act
    have e9 := same_some S.decl h1 hR3
    obtain ⟨t4, hR6, rfl⟩ := hR3.cap
    subst e9
    have hno : ¬ ((∃ m2, Ev' R.dec_ (sequ (fracL ++ [.act 98])) pa { m with b := pos } (.fail m2)) ∧
          ∃ m2, Ev' R.dec_ (sequ (expL ++ [.act 99])) pa { m with b := pos } (.fail m2)) := by
      rintro ⟨⟨_, h1⟩, _, h2⟩
      rcases hR1.act_none.seq_none with hR7 | ⟨t5, i5, hR7, hR8⟩
      · exact same_not2 S.decE ha hR7.cap_none
      · obtain ⟨t6, hR9, rfl⟩ := hR7.cap
        cases same_some S.decE ha hR9
        obtain ⟨x, hR10⟩ := hR8.not_none
        rcases hR10.alt with ⟨z, e, hR11⟩ | ⟨_, hR11⟩
        · exact same_not1 S.frac h1 hR11
        · exact same_not1 S.exp h2 hR11
    rcases hy.2 with ⟨-, -, h1, h2⟩ | ⟨e1, h1, h2, -⟩
    · exact (hno ⟨h1, h2⟩).elim
    · have : txt = slice inp pos p1 := ht (by show p1 ≠ 0; omega)
      subst this
      rw [e1, slice_take (by omega) h2]
      exact .dbl

/-! ### Strings -/

/-- The expression appends what `t` says to `P->pbuf`. -/
def Wr (P : Nat → List Byte → Bool) (inp : List Byte) (f : Nat) (w : Exp × PExp) : Prop := ∀ {r pos m p evs m' t i env envs y s'},
  pos ≤ inp.length → Eval potionGrammar P inp r w.1 pos m (.ok p evs m') → R f w.2 (inp.drop pos) (some (t, i)) → Runs runAct inp evs (env :: envs, y) s' →
  ∃ env' y', s' = (env' :: envs, y') ∧ ∀ s, t = .str s → y'.2.pbuf = y.2.pbuf ++ s ∧ y'.2.failed = y.2.failed

theorem Wr.name {r' v q} {ru : Rule} (hr : potionGrammar[r']? = some ru) (h : Wr P inp f (ru.body, q)) : Wr P inp f (.name r' v, q) := by
  intro r pos m p evs m' t i env envs y s' hp h' hR hx
  obtain ⟨ru', ev3, hr', h3, rfl⟩ := name_inv h'
  rw [hr] at hr'; cases hr'
  obtain ⟨y1, hy, rfl⟩ := run_name (K := fun y1 => ∀ s, t = .str s → y1.2.pbuf = y.2.pbuf ++ s ∧ y1.2.failed = y.2.failed) hx fun env0 s1 h5 => h hp h3 hR h5
  exact ⟨_, _, rfl, hy⟩

theorem wr_text {es : List Exp} {a : Nat} (hs : Same (sequ es) q) (ha : ∀ t env y, runAct a t env y = write t env y)
    (hq : (sequ es).quiet isQuiet = true) (hn : (sequ es).null (nulOf potionNul) = false) : Wr P inp f (sequ (.open :: es ++ [.close, .act a]), .cap q) := by
  intro r pos m p evs m' t i env envs y s' hp h hR hx
  obtain ⟨p2, ev2, hp2, rfl, rfl, h0, h, hx⟩ := seq_cap hp h hx hR hs hq hn
  obtain ⟨ev4, txt, h, ht, hx⟩ := seq_act h hx
  obtain ⟨-, -, rfl⟩ := seq_end h hx
  cases ht h0
  rw [ha]
  exact ⟨_, _, rfl, fun s e => by cases e; exact ⟨rfl, rfl⟩⟩

theorem wr_two {e1 e2 : Exp} {q1 q2 : PExp} {a : Nat} {b : List Byte} (hs1 : Same e1 q1) (hs2 : Same e2 q2) (hq1 : e1.quiet isQuiet = true) (hq2 : e2.quiet isQuiet = true)
    (ha : ∀ t env y, runAct a t env y = write b env y) : Wr P inp f (sequ [e1, e2, .act a], .act (fun _ => .str b) (.seq q1 q2)) := by
  intro r pos m p evs m' t i env envs y s' hp h hR hx
  obtain ⟨t1, hR1, rfl⟩ := hR.act
  obtain ⟨t2, i2, t3, hR2, hR3, rfl⟩ := hR1.seq
  obtain ⟨p1, ev1, hp1, rfl, h, hx⟩ := seq_tok hp h hx hR2 hq1 hs1
  obtain ⟨p2, ev2, hp2, rfl, h, hx⟩ := seq_tok hp1 h hx hR3 hq2 hs2
  obtain ⟨ev4, txt, h, ht, hx⟩ := seq_act h hx
  obtain ⟨-, -, rfl⟩ := seq_end h hx
  rw [ha]
  exact ⟨_, _, rfl, fun s e => by cases e; exact ⟨rfl, rfl⟩⟩

theorem same_two {e1 e2 : Exp} {q1 q2 : PExp} {a : Nat} {g} (hs1 : Same e1 q1) (hs2 : Same e2 q2) : Same (sequ [e1, e2, .act a]) (.act g (.seq q1 q2)) :=
  Same.to (.seq hs1 (.last hs2 (.act .eps)))

theorem esc_write {o : Option (List Byte)} {s : List Byte} {k : Nat → Option (List Byte)} (ho : o = k (Dec.atoi s 16).toNat) :
    ∀ z, Peg.escText k (.str s) = .str z → (escWrite o env y).2.2.pbuf = y.2.pbuf ++ z ∧ (escWrite o env y).2.2.failed = y.2.failed := by
  subst ho
  intro z hz
  rw [Peg.escText] at hz
  split at hz
  · next h => cases hz; rw [h]; exact ⟨rfl, rfl⟩
  · cases hz

def hex4 : PExp := .seq Peg.hexl (.seq Peg.hexl (.seq Peg.hexl Peg.hexl))
theorem S.hex4 : Same (sequ [.name R.hexl none, .name R.hexl none, .name R.hexl none, .name R.hexl none]) hex4 := .seq S.hexl (.seq S.hexl (.seq S.hexl (.last S.hexl .eps)))

def escuP : Exp × PExp := (.name R.escu none, .act (Peg.escText Str.escu) (Peg.right Peg.esc (Peg.right (Peg.tok "u") (.cap hex4))))
def escUP : Exp × PExp := (.name R.escU none, .act (Peg.escText Str.escU) (Peg.right Peg.esc (Peg.right (Peg.tok "U{") (Peg.left (.cap (Peg.plus1 Peg.hexl)) (Peg.tok "}")))))
def esccP : Exp × PExp := (.name R.escc none, Peg.right Peg.esc (.cap Peg.utf8))

theorem S.escu : Same escuP.1 escuP.2 := .name rfl (Same.to (.seq S.esc (.seq (.chr rfl) (.op (.seq S.hexl (.seq S.hexl (.seq S.hexl (.last S.hexl (.cl (.act .eps))))))))))
theorem S.escU : Same escUP.1 escUP.2 := .norm 2 (by decide +kernel)
theorem S.escc : Same esccP.1 esccP.2 := .name rfl (Same.to (.seq S.esc (.op (.last S.utf8 (.cl (.act .eps))))))

theorem escu_wr : Wr P inp f escuP := by
  refine Wr.name rfl ?_
  intro r pos m p evs m' t i env envs y s' hp h hR hx
  obtain ⟨t1, hR1, rfl⟩ := hR.act
  obtain ⟨_, i2, hR2, hR3⟩ := hR1.right
  obtain ⟨_, i3, hR4, hR5⟩ := hR3.right
  obtain ⟨p1, ev1, hp1, rfl, h, hx⟩ := seq_tok hp h hx hR2
  obtain ⟨p2, ev2, hp2, rfl, h, hx⟩ := seq_tok hp1 h hx hR4 rfl (.chr rfl)
  obtain ⟨p3, ev3, hp3, rfl, rfl, h0, h, hx⟩ := seq_cap (es := [.name R.hexl none, .name R.hexl none, .name R.hexl none, .name R.hexl none]) (rest := [.act 109]) hp2 h hx hR5 S.hex4
  obtain ⟨ev4, txt, h, ht, hx⟩ := seq_act h hx
  obtain ⟨-, -, rfl⟩ := seq_end h hx
  cases ht h0
  exact ⟨_, _, rfl, esc_write rfl⟩

theorem escU_wr : Wr P inp f escUP := by
  refine Wr.name rfl ?_
  intro r pos m p evs m' t i env envs y s' hp h hR hx
  obtain ⟨t1, hR1, rfl⟩ := hR.act
  obtain ⟨_, i2, hR2, hR3⟩ := hR1.right
  obtain ⟨_, i3, hR4, hR5⟩ := hR3.right
  obtain ⟨_, i4, hR6, hR7⟩ := hR5.left
  obtain ⟨p1, ev1, hp1, rfl, h, hx⟩ := seq_tok hp h hx hR2
  obtain ⟨pa, eva, ma, evb, ha, hb, rfl⟩ := sequ_app (es := [.chr 0x55, .chr 0x7B]) (rest := [.open, .plus (.name R.hexl none), .close, .chr 0x7D, .act 110]) h
  obtain ⟨sa, hxa, hxb⟩ := runs_app hx
  have e1 := (quiet_marks ha rfl).1 _ _ _ rfl
  have e2 := quiet_runs ha rfl _ _ _ rfl _ _ hxa
  subst e1 e2
  cases same_some (.norm 0 (by decide +kernel)) ha hR4
  obtain ⟨p3, ev3, hp3, rfl, rfl, h0, h, hx⟩ := seq_cap (es := [.plus (.name R.hexl none)]) (rest := [.chr 0x7D, .act 110]) ((moves ha).2 hp1) hb hxb hR6 (.last (.plus S.hexl) .eps)
  obtain ⟨p4, ev5, hp4, rfl, h, hx⟩ := seq_tok hp3 h hx hR7 rfl (.chr rfl)
  obtain ⟨ev4, txt, h, ht, hx⟩ := seq_act h hx
  obtain ⟨-, -, rfl⟩ := seq_end h hx
  cases ht h0
  exact ⟨_, _, rfl, esc_write rfl⟩

theorem escc_wr : Wr P inp f esccP := by
  refine Wr.name rfl ?_
  intro r pos m p evs m' t i env envs y s' hp h hR hx
  obtain ⟨_, i2, hR2, hR3⟩ := hR.right
  obtain ⟨p1, ev1, hp1, rfl, h, hx⟩ := seq_tok hp h hx hR2
  obtain ⟨p3, ev3, hp3, rfl, rfl, h0, h, hx⟩ := seq_cap (es := [.name R.utf8 none]) (rest := [.act 111]) hp1 h hx hR3 (.last S.utf8 .eps)
  obtain ⟨ev4, txt, h, ht, hx⟩ := seq_act h hx
  obtain ⟨-, -, rfl⟩ := seq_end h hx
  cases ht h0
  exact ⟨_, _, rfl, fun s e => by cases e; exact ⟨rfl, rfl⟩⟩

def str1Alts : List (Exp × PExp) := [
  (sequ [.name R.q1 none, .name R.q1 none, .act 102], .act (fun _ => .str (Peg.ascii "'")) (.seq Peg.q1 Peg.q1)),
  (.name R.c1 none, .cap (Peg.plus1 (.seq (.not Peg.q1) Peg.utf8)))]

def str2Alts : List (Exp × PExp) := [
  (.name R.e2 none, Peg.escape "\"" 34#8), (.name R.escn none, Peg.escape "n" 10#8), (.name R.escb none, Peg.escape "b" 8#8), (.name R.escf none, Peg.escape "f" 12#8),
  (.name R.escr none, Peg.escape "r" 13#8), (.name R.esct none, Peg.escape "t" 9#8), escuP, escUP, esccP,
  (.name R.c2 none, .cap (Peg.plus1 (.seq (.not Peg.q2) (.seq (.not Peg.esc) Peg.utf8))))]

theorem S.quote : Same (.cls [0x22]) (Peg.tok "\"") := .norm 0 (by decide +kernel)

theorem str1Alts_same : ∀ x ∈ str1Alts, Same x.1 x.2 := by
  simp only [str1Alts, List.forall_mem_cons]
  exact ⟨same_two S.q1 S.q1, .name rfl (Same.to (.op (.last (.plus (.seq (.not S.q1) (.last S.utf8 .eps))) (.cl (.act .eps))))), by simp⟩

theorem str2Alts_same : ∀ x ∈ str2Alts, Same x.1 x.2 := by
  simp only [str2Alts, List.forall_mem_cons]
  exact ⟨.name rfl (same_two (.chr rfl) S.quote), .name rfl (same_two S.esc (.chr rfl)), .name rfl (same_two S.esc (.chr rfl)), .name rfl (same_two S.esc (.chr rfl)),
    .name rfl (same_two S.esc (.chr rfl)), .name rfl (same_two S.esc (.chr rfl)), S.escu, S.escU, S.escc,
    .name rfl (Same.to (.op (.last (.plus (.seq (.not S.q2) (.seq (.not S.esc) (.last S.utf8 .eps)))) (.cl (.act .eps))))), by simp⟩

theorem str1Alts_wr : ∀ x ∈ str1Alts, Wr P inp f x := by
  simp only [str1Alts, List.forall_mem_cons]
  exact ⟨wr_two S.q1 S.q1 (by decide +kernel) (by decide +kernel) (fun _ _ _ => rfl),
    Wr.name rfl (wr_text (es := [.plus (sequ [.not (.name R.q1 none), .name R.utf8 none])]) (.last (.plus (.seq (.not S.q1) (.last S.utf8 .eps))) .eps) (fun _ _ _ => rfl)
      (by decide +kernel) (by decide +kernel)), by simp⟩

theorem str2Alts_wr : ∀ x ∈ str2Alts, Wr P inp f x := by
  simp only [str2Alts, List.forall_mem_cons]
  exact ⟨Wr.name rfl (wr_two (.chr rfl) S.quote rfl rfl fun _ _ _ => rfl), Wr.name rfl (wr_two S.esc (.chr rfl) (by decide +kernel) rfl fun _ _ _ => rfl),
    Wr.name rfl (wr_two S.esc (.chr rfl) (by decide +kernel) rfl fun _ _ _ => rfl), Wr.name rfl (wr_two S.esc (.chr rfl) (by decide +kernel) rfl fun _ _ _ => rfl),
    Wr.name rfl (wr_two S.esc (.chr rfl) (by decide +kernel) rfl fun _ _ _ => rfl), Wr.name rfl (wr_two S.esc (.chr rfl) (by decide +kernel) rfl fun _ _ _ => rfl),
    escu_wr, escU_wr, escc_wr,
    Wr.name rfl (wr_text (es := [.plus (sequ [.not (.name R.q2 none), .not (.name R.esc none), .name R.utf8 none])])
      (.last (.plus (.seq (.not S.q2) (.seq (.not S.esc) (.last S.utf8 .eps)))) .eps) (fun _ _ _ => rfl) (by decide +kernel) (by decide +kernel)), by simp⟩

theorem pieces_push : ∀ {l : List Tree} {x s}, Peg.pieces (l ++ [x]) = some s → ∃ s1 s2, Peg.pieces l = some s1 ∧ x = .str s2 ∧ s = s1 ++ s2
  | [], x, s, h => by
    cases x with
    | str s2 => cases h; exact ⟨[], s2, rfl, rfl, by simp⟩
    | _ => cases h
  | z :: l, x, s, h => by
    cases z with
    | str z =>
      rw [List.cons_append, Peg.pieces] at h
      cases hl : Peg.pieces (l ++ [x]) with
      | none => rw [hl] at h; cases h
      | some s0 =>
        rw [hl] at h; cases h
        obtain ⟨s1, s2, h1, h2, rfl⟩ := pieces_push hl
        exact ⟨z ++ s1, s2, by rw [Peg.pieces, h1]; rfl, h2, by rw [List.append_assoc]⟩
    | _ => cases h

/-- `quote { P->pbuf = ... } < (...)* > quote { $$ = ... }` -/
theorem strRule_ok {qt a1 a2 : Nat} {qq : PExp} {ps : List (Exp × PExp)} {ru : Rule} (h0 : ps ≠ []) (hru : potionGrammar[r]? = some ru)
    (hbody : ru.body = sequ [.name qt none, .act a1, .open, .star (choice (ps.map (·.1))), .close, .name qt none, .act a2])
    (hqt : Same (.name qt none) qq) (hqq : (Exp.name qt none).quiet isQuiet = true) (hs : ∀ x ∈ ps, Same x.1 x.2) (hw : ∀ x ∈ ps, Wr P inp f x)
    (ha1 : ∀ t env y, runAct a1 t env y = (env, (y.1, { y.2 with pbuf := [] }))) (ha2 : ∀ t env y, runAct a2 t env y = ret (.str y.2.pbuf) env y) :
    Rl P inp f r (.act Peg.joined (Peg.left (Peg.right qq (.star (Peg.alts (ps.map (·.2))))) qq)) := by
  intro ru' pos m p evs m' t i env envs y s' hr hp h hR hx
  rw [hru] at hr; cases hr
  rw [hbody] at h
  obtain ⟨t1, hR1, rfl⟩ := hR.act
  obtain ⟨_, i2, hR2, hR3⟩ := hR1.left
  obtain ⟨_, i3, hR4, hR5⟩ := hR2.right
  obtain ⟨p1, ev1, hp1, rfl, h, hx⟩ := seq_tok hp h hx hR4 hqq hqt
  obtain ⟨ev2, txt, h, _, hx⟩ := seq_act h hx
  rw [ha1] at hx
  have h := seq_open h
  obtain ⟨p3, ev3, m3, ev4, h4, h5, rfl⟩ := seq_inv h
  obtain ⟨s1, hx1, hx2⟩ := runs_app hx
  obtain ⟨l, env', y', rfl, rfl, rfl, hI⟩ := star_ind (lst := []) (.choice h0 hs)
    (fun l env' y' => ∀ s, Peg.pieces l = some s → y'.2.pbuf = s ∧ y'.2.failed = y.2.failed)
    (by
      intro pos m p evs m' t i env y' s' lst hp hI h hR hx
      obtain ⟨w, hw', m4, h7, hR4⟩ := alts_inv h0 hs h hR
      obtain ⟨env1, y1, rfl, h8⟩ := hw w hw' hp h7 hR4 hx
      refine ⟨_, _, rfl, fun s hs => ?_⟩
      obtain ⟨s1, s2, h9, rfl, rfl⟩ := pieces_push hs
      rw [(h8 _ rfl).1, (h8 _ rfl).2, (hI _ h9).1, (hI _ h9).2]
      exact ⟨rfl, rfl⟩)
    hp1 h4 hR5 hx1 (by intro s e; cases e; exact ⟨rfl, rfl⟩)
  have h6 := seq_close h5
  obtain ⟨p5, ev5, hp5, rfl, h, hx⟩ := seq_tok ((moves h4).2 hp1) h6 hx2 hR3 hqq hqt
  obtain ⟨ev6, txt, h, _, hx⟩ := seq_act h hx
  obtain ⟨-, -, rfl⟩ := seq_end h hx
  rw [ha2]
  refine ⟨_, _, rfl, ?_⟩
  rw [List.nil_append] at hI
  rw [Peg.joined]
  cases hl : Peg.pieces l with
  | none => exact ⟨.error, fun hc => by cases hc⟩
  | some z =>
    rw [hl] at hI
    obtain ⟨e1, e2⟩ := hI _ rfl
    refine ⟨?_, fun _ => e2⟩
    show Fits _ (.str y'.2.pbuf)
    rw [e1]; exact .str

omit P inp f r pos p m m' evs env envs y s s' t i q in
theorem Same.split {es rest : List Exp} {p q : PExp} (h1 : Same (sequ es) p) (h2 : Same (sequ rest) q) : Same (sequ (es ++ rest)) (.seq p q) := by
  constructor
  intro P inp r pos m res h
  refine seqN_ok ?_
  cases res with
  | ok p' evs m' =>
    obtain ⟨p1, ev1, m1, ev2, h3, h4, rfl⟩ := sequ_app h
    have h5 := h2.ok h4
    exact .seqOk (h1.ok h3) h5
  | fail m' =>
    rcases sequ_app_fail h with h3 | ⟨p1, ev1, m1, h3, h4⟩
    · exact .seqFail (h1.ok h3)
    · exact .seqOk (h1.ok h3) (h2.ok h4)

theorem S.strRule {r qt a1 a2 : Nat} {v : Option Nat} {qq : PExp} {ps : List (Exp × PExp)} {ru : Rule} (h0 : ps ≠ []) (hru : potionGrammar[r]? = some ru)
    (hbody : ru.body = sequ [.name qt none, .act a1, .open, .star (choice (ps.map (·.1))), .close, .name qt none, .act a2])
    (hqt : Same (.name qt none) qq) (hs : ∀ x ∈ ps, Same x.1 x.2) : Same (.name r v) (.act Peg.joined (Peg.left (Peg.right qq (.star (Peg.alts (ps.map (·.2))))) qq)) := by
  refine .name hru ?_
  rw [hbody]
  exact Same.to (Same.split (es := [.name qt none, .act a1, .open, .star (choice (ps.map Prod.fst))]) (rest := [.close, .name qt none, .act a2])
    (.seq hqt (.act (.op (.last (.star (Same.choice h0 hs)) .eps)))) (.cl (.last hqt (.act .eps))))

end
end Potion.Greg
