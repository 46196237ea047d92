import Verif.Proof.GregPotion
import Verif.Model.Syntax
namespace Potion.Greg
open Potion.Peg (PExp NT)

/-! What is matched, leaving aside actions: a common form of potion's grammar and of the parsing expressions of Model/Syntax.lean. -/

/-- Sets of bytes. -/
abbrev Bs := List Bool
def Bs.mk (p : Byte → Bool) : Bs := (List.range 256).map fun k => p (BitVec.ofNat 8 k)
def Bs.has (s : Bs) (b : Byte) : Bool := s.getD b.toNat false
def Bs.or : Bs → Bs → Bs
  | a :: s, b :: t => (a || b) :: Bs.or s t
  | [], t => t
  | s, [] => s

theorem Bs.has_mk (p : Byte → Bool) (b : Byte) : (Bs.mk p).has b = p b := by
  have h : b.toNat < 256 := b.isLt
  rw [Bs.has, Bs.mk, List.getD_eq_getElem?_getD, List.getElem?_map, List.getElem?_range h]
  simp

theorem Bs.getD_or : ∀ (s t : Bs) (k : Nat), (Bs.or s t).getD k false = (s.getD k false || t.getD k false)
  | [], t, k => by simp [Bs.or]
  | a :: s, [], k => by simp [Bs.or]
  | a :: s, b :: t, 0 => by simp [Bs.or]
  | a :: s, b :: t, k+1 => by
    have := Bs.getD_or s t k
    simpa [Bs.or] using this

theorem Bs.has_or (s t : Bs) (b : Byte) : (Bs.or s t).has b = (s.has b || t.has b) := Bs.getD_or s t _

inductive N
  | eps
  | set (s : Bs)
  | seq (a b : N)
  | alt (a b : N)
  | star (a : N)
  | not (a : N)
  | nt (n : NT)
  deriving DecidableEq

/-- Matching. -/
inductive Rec (ρ : NT → N) : N → List Byte → Option (List Byte) → Prop
  | eps {i} : Rec ρ .eps i (some i)
  | setOk {s c i} : Bs.has s c = true → Rec ρ (.set s) (c :: i) (some i)
  | setFail {s i} : (∀ c r, i = c :: r → Bs.has s c = false) → Rec ρ (.set s) i none
  | seqOk {a b i i' r} : Rec ρ a i (some i') → Rec ρ b i' r → Rec ρ (.seq a b) i r
  | seqFail {a b i} : Rec ρ a i none → Rec ρ (.seq a b) i none
  | altOk {a b i i'} : Rec ρ a i (some i') → Rec ρ (.alt a b) i (some i')
  | altNext {a b i r} : Rec ρ a i none → Rec ρ b i r → Rec ρ (.alt a b) i r
  | starEnd {a i} : Rec ρ a i none → Rec ρ (.star a) i (some i)
  | starMore {a i i' r} : Rec ρ a i (some i') → Rec ρ (.star a) i' r → Rec ρ (.star a) i r
  | notOk {a i} : Rec ρ a i none → Rec ρ (.not a) i (some i)
  | notFail {a i i'} : Rec ρ a i (some i') → Rec ρ (.not a) i none
  | nt {n i r} : Rec ρ (ρ n) i r → Rec ρ (.nt n) i r

section
variable {ρ : NT → N}

theorem Rec.det {a i r r'} (h : Rec ρ a i r) (h' : Rec ρ a i r') : r = r' := by
  induction h generalizing r' with
  | eps => cases h'; rfl
  | setOk h => cases h' with
    | setOk => rfl
    | setFail h2 => rw [h2 _ _ rfl] at h; cases h
  | setFail h => cases h' with
    | setOk h2 => rw [h _ _ rfl] at h2; cases h2
    | setFail => rfl
  | seqOk h1 h2 ih1 ih2 => cases h' with
    | seqOk h3 h4 => cases ih1 h3; exact ih2 h4
    | seqFail h3 => cases ih1 h3
  | seqFail h1 ih1 => cases h' with
    | seqOk h3 h4 => cases ih1 h3
    | seqFail h3 => rfl
  | altOk h1 ih1 => cases h' with
    | altOk h3 => exact ih1 h3
    | altNext h3 h4 => cases ih1 h3
  | altNext h1 h2 ih1 ih2 => cases h' with
    | altOk h3 => cases ih1 h3
    | altNext h3 h4 => exact ih2 h4
  | starEnd h1 ih1 => cases h' with
    | starEnd h3 => rfl
    | starMore h3 h4 => cases ih1 h3
  | starMore h1 h2 ih1 ih2 => cases h' with
    | starEnd h3 => cases ih1 h3
    | starMore h3 h4 => cases ih1 h3; exact ih2 h4
  | notOk h1 ih1 => cases h' with
    | notOk h3 => rfl
    | notFail h3 => cases ih1 h3
  | notFail h1 ih1 => cases h' with
    | notOk h3 => cases ih1 h3
    | notFail h3 => rfl
  | nt h ih => cases h' with
    | nt h2 => exact ih h2

theorem Rec.star_some {a i} (h : Rec ρ (.star a) i none) : False := by
  generalize hx : N.star a = x at h
  generalize hr : (none : Option (List Byte)) = r at h
  induction h with
  | starMore _ _ _ ih => exact ih hx hr
  | starEnd => cases hr
  | _ => cases hx

/-! ### Normal forms -/

def seq1 (a b : N) : N := match a, b with
  | .eps, b => b
  | a, .eps => a
  | .not (.set s), .not (.set t) => .not (.set (Bs.or s t))
  | .not (.set s), .seq (.not (.set t)) r => .seq (.not (.set (Bs.or s t))) r
  | a, b => .seq a b
def seqN : N → N → N
  | .seq a a', b => seq1 a (seqN a' b)
  | a, b => seq1 a b

theorem not_or {s t : Bs} {i r} (h : Rec ρ (.seq (.not (.set s)) (.not (.set t))) i r) : Rec ρ (.not (.set (Bs.or s t))) i r := by
  cases h with
  | seqOk h1 h2 =>
    cases h1 with
    | notOk h1 =>
    cases h1 with
    | setFail h1 =>
    cases h2 with
    | notOk h2 =>
      cases h2 with
      | setFail h2 => exact .notOk (.setFail fun c r e => by rw [Bs.has_or, h1 _ _ e, h2 _ _ e]; rfl)
    | notFail h2 =>
      cases h2 with
      | setOk h2 => exact .notFail (.setOk (by rw [Bs.has_or, h2, Bool.or_true]))
  | seqFail h1 =>
    cases h1 with
    | notFail h1 =>
    cases h1 with
    | setOk h1 => exact .notFail (.setOk (by rw [Bs.has_or, h1]; rfl))

theorem seq_assoc {a b c : N} {i r} (h : Rec ρ (.seq (.seq a b) c) i r) : Rec ρ (.seq a (.seq b c)) i r := by
  cases h with
  | seqOk h1 h2 => cases h1 with
    | seqOk h3 h4 => exact .seqOk h3 (.seqOk h4 h2)
  | seqFail h1 => cases h1 with
    | seqOk h3 h4 => exact .seqOk h3 (.seqFail h4)
    | seqFail h3 => exact .seqFail h3

theorem seq_assoc' {a b c : N} {i r} (h : Rec ρ (.seq a (.seq b c)) i r) : Rec ρ (.seq (.seq a b) c) i r := by
  cases h with
  | seqOk h1 h2 => cases h2 with
    | seqOk h3 h4 => exact .seqOk (.seqOk h1 h3) h4
    | seqFail h3 => exact .seqFail (.seqOk h1 h3)
  | seqFail h1 => exact .seqFail (.seqFail h1)

theorem seq_mono {a a' b b' : N} (ha : ∀ {i r}, Rec ρ a i r → Rec ρ a' i r) (hb : ∀ {i r}, Rec ρ b i r → Rec ρ b' i r) {i r} (h : Rec ρ (.seq a b) i r) : Rec ρ (.seq a' b') i r := by
  cases h with
  | seqOk h1 h2 => exact .seqOk (ha h1) (hb h2)
  | seqFail h1 => exact .seqFail (ha h1)

theorem seq1_ok {a b : N} {i r} (h : Rec ρ (.seq a b) i r) : Rec ρ (seq1 a b) i r := by
  unfold seq1
  split
  · cases h with
    | seqOk h1 h2 => cases h1; exact h2
    | seqFail h1 => cases h1
  · cases h with
    | seqOk h1 h2 => cases h2; exact h1
    | seqFail h1 => exact h1
  · exact not_or h
  · exact seq_mono not_or (fun h => h) (seq_assoc' h)
  · exact h

theorem seqN_ok : ∀ {a b : N} {i r}, Rec ρ (.seq a b) i r → Rec ρ (seqN a b) i r
  | .seq a a', b, i, r, h => by
    rw [seqN]
    exact seq1_ok (seq_mono (fun h => h) (fun h => seqN_ok h) (seq_assoc h))
  | .eps, b, i, r, h => by rw [seqN]; exact seq1_ok h; all_goals (intro _ _ e; cases e)
  | .set _, b, i, r, h => by rw [seqN]; exact seq1_ok h; all_goals (intro _ _ e; cases e)
  | .alt _ _, b, i, r, h => by rw [seqN]; exact seq1_ok h; all_goals (intro _ _ e; cases e)
  | .star _, b, i, r, h => by rw [seqN]; exact seq1_ok h; all_goals (intro _ _ e; cases e)
  | .not _, b, i, r, h => by rw [seqN]; exact seq1_ok h; all_goals (intro _ _ e; cases e)
  | .nt _, b, i, r, h => by rw [seqN]; exact seq1_ok h; all_goals (intro _ _ e; cases e)

/-- `x !(p | q) | x p? q?` is `x p? q?`. -/
def numRule : N → N → Bool
  | .seq a a', .seq b b' => decide (a = b) && numRule a' b'
  | .not (.alt p q), .seq (.alt p' .eps) (.alt q' .eps) => decide (p = p') && decide (q = q')
  | _, _ => false

theorem numRule_ok : ∀ {a b : N}, numRule a b = true → ∀ i i', Rec ρ a i (some i') → Rec ρ b i (some i')
  | .seq a a', .seq b b', h => by
    intro i i' hr
    rw [numRule, Bool.and_eq_true, decide_eq_true_eq] at h
    cases hr with
    | seqOk h1 h2 => rw [← h.1]; exact .seqOk h1 (numRule_ok h.2 _ _ h2)
  | .not (.alt p q), .seq (.alt p' .eps) (.alt q' .eps), h => by
    intro i i' hr
    rw [numRule, Bool.and_eq_true, decide_eq_true_eq, decide_eq_true_eq] at h
    rw [← h.1, ← h.2]
    cases hr with
    | notOk h1 =>
    cases h1 with
    | altNext h1 h2 => exact .seqOk (.altNext h1 .eps) (.altNext h2 .eps)

def alt1 (a b : N) : N :=
  if numRule a b then b else match a, b with
  | .set s, .set t => .set (Bs.or s t)
  | .set s, .alt (.set t) r => .alt (.set (Bs.or s t)) r
  | a, b => .alt a b
def altN : N → N → N
  | .alt a a', b => alt1 a (altN a' b)
  | a, b => alt1 a b

theorem set_or {s t : Bs} {i r} (h : Rec ρ (.alt (.set s) (.set t)) i r) : Rec ρ (.set (Bs.or s t)) i r := by
  cases h with
  | altOk h1 => cases h1 with
    | setOk h1 => exact .setOk (by rw [Bs.has_or, h1]; rfl)
  | altNext h1 h2 => cases h1 with
    | setFail h1 => cases h2 with
      | setOk h2 => exact .setOk (by rw [Bs.has_or, h2, Bool.or_true])
      | setFail h2 => exact .setFail fun c r e => by rw [Bs.has_or, h1 _ _ e, h2 _ _ e]; rfl

theorem alt_assoc {a b c : N} {i r} (h : Rec ρ (.alt (.alt a b) c) i r) : Rec ρ (.alt a (.alt b c)) i r := by
  cases h with
  | altOk h1 => cases h1 with
    | altOk h3 => exact .altOk h3
    | altNext h3 h4 => exact .altNext h3 (.altOk h4)
  | altNext h1 h2 => cases h1 with
    | altNext h3 h4 => exact .altNext h3 (.altNext h4 h2)

theorem alt_assoc' {a b c : N} {i r} (h : Rec ρ (.alt a (.alt b c)) i r) : Rec ρ (.alt (.alt a b) c) i r := by
  cases h with
  | altOk h1 => exact .altOk (.altOk h1)
  | altNext h1 h2 => cases h2 with
    | altOk h3 => exact .altOk (.altNext h1 h3)
    | altNext h3 h4 => exact .altNext (.altNext h1 h3) h4

theorem alt_mono {a a' b b' : N} (ha : ∀ {i r}, Rec ρ a i r → Rec ρ a' i r) (hb : ∀ {i r}, Rec ρ b i r → Rec ρ b' i r) {i r} (h : Rec ρ (.alt a b) i r) : Rec ρ (.alt a' b') i r := by
  cases h with
  | altOk h1 => exact .altOk (ha h1)
  | altNext h1 h2 => exact .altNext (ha h1) (hb h2)

theorem alt1_ok {a b : N} {i r} (h : Rec ρ (.alt a b) i r) : Rec ρ (alt1 a b) i r := by
  unfold alt1
  split
  · next hn => cases h with
    | altOk h1 => exact numRule_ok hn _ _ h1
    | altNext h1 h2 => exact h2
  split
  · exact set_or h
  · exact alt_mono set_or (fun h => h) (alt_assoc' h)
  · exact h

theorem altN_ok : ∀ {a b : N} {i r}, Rec ρ (.alt a b) i r → Rec ρ (altN a b) i r
  | .alt a a', b, i, r, h => by
    rw [altN]
    exact alt1_ok (alt_mono (fun h => h) (fun h => altN_ok h) (alt_assoc h))
  | .eps, b, i, r, h => by rw [altN]; exact alt1_ok h; all_goals (intro _ _ e; cases e)
  | .set _, b, i, r, h => by rw [altN]; exact alt1_ok h; all_goals (intro _ _ e; cases e)
  | .seq _ _, b, i, r, h => by rw [altN]; exact alt1_ok h; all_goals (intro _ _ e; cases e)
  | .star _, b, i, r, h => by rw [altN]; exact alt1_ok h; all_goals (intro _ _ e; cases e)
  | .not _, b, i, r, h => by rw [altN]; exact alt1_ok h; all_goals (intro _ _ e; cases e)
  | .nt _, b, i, r, h => by rw [altN]; exact alt1_ok h; all_goals (intro _ _ e; cases e)

/-! ### Parsing expressions -/

def litN : List Byte → N
  | [] => .eps
  | c :: s => seqN (.set (Bs.mk (· == c))) (litN s)

def normP : PExp → N
  | .chr p => .set (Bs.mk p)
  | .lit s => litN s
  | .eps => .eps
  | .seq a b => seqN (normP a) (normP b)
  | .alt a b => altN (normP a) (normP b)
  | .star a => .star (normP a)
  | .not a => .not (normP a)
  | .nt n => .nt n
  | .cap a => normP a
  | .act _ a => normP a

theorem lit_ok : ∀ (s i : List Byte), Rec ρ (litN s) i (Peg.matchLit s i)
  | [], i => .eps
  | c :: s, i => by
    rw [litN]
    apply seqN_ok
    cases i with
    | nil => exact .seqFail (.setFail fun _ _ e => by cases e)
    | cons b i =>
      rw [Peg.matchLit]
      split
      · next h => subst h; exact .seqOk (.setOk (by rw [Bs.has_mk]; simp)) (lit_ok s i)
      · next h => exact .seqFail (.setFail fun x r e => by cases e; rw [Bs.has_mk]; simpa using fun e => h e.symm)

theorem run_ok {rule : NT → PExp} (hρ : ∀ n, ρ n = normP (rule n)) : ∀ {f e i res}, Peg.run rule f e i = some res → Rec ρ (normP e) i (res.map (·.2)) := by
  intro f
  induction f with
  | zero => intro e i res h; cases h
  | succ f ih =>
    intro e i res h
    cases e with
    | chr p =>
      cases i with
      | nil => rw [Peg.run.eq_def] at h; cases h; exact .setFail fun _ _ e => by cases e
      | cons b bs =>
        rw [Peg.run.eq_def] at h
        simp only [Option.some.injEq] at h
        subst h
        rw [normP]
        split
        · next hp => exact .setOk (by rw [Bs.has_mk]; exact hp)
        · next hp => exact .setFail fun c r e => by cases e; rw [Bs.has_mk]; simpa using hp
    | lit s =>
      rw [Peg.run] at h
      cases h
      rw [normP]
      have := lit_ok (ρ := ρ) s i
      cases hm : Peg.matchLit s i <;> simpa [hm] using this
    | eps => rw [Peg.run] at h; cases h; exact .eps
    | seq a b =>
      rw [Peg.run] at h
      rw [normP]
      apply seqN_ok
      split at h
      · cases h
      · next h1 => cases h; exact .seqFail (ih h1)
      · next h1 =>
        split at h
        · cases h
        · next h2 => cases h; exact .seqOk (ih h1) (ih h2)
        · next h2 => cases h; have e1 := ih h1; have e2 := ih h2; exact .seqOk e1 e2
    | alt a b =>
      rw [Peg.run] at h
      rw [normP]
      apply altN_ok
      split at h
      · cases h
      · next h1 => exact .altNext (ih h1) (ih h)
      · next h1 => cases h; exact .altOk (ih h1)
    | star a =>
      rw [Peg.run] at h
      rw [normP]
      split at h
      · cases h
      · next h1 => cases h; exact .starEnd (ih h1)
      · next h1 =>
        split at h
        · cases h
        · next h2 => cases h; exact .starMore (ih h1) (ih h2)
        · next h2 => cases h; exact .starMore (ih h1) (ih h2)
        · next h2 => cases h; exact .starMore (ih h1) (ih h2)
    | not a =>
      rw [Peg.run] at h
      rw [normP]
      split at h
      · cases h
      · next h1 => cases h; exact .notOk (ih h1)
      · next h1 => cases h; exact .notFail (ih h1)
    | nt n =>
      rw [Peg.run] at h
      rw [normP]
      refine .nt ?_
      rw [hρ]; exact ih h
    | cap a =>
      rw [Peg.run] at h
      rw [normP]
      split at h
      · cases h
      · next h1 => cases h; exact ih h1
      · next h1 => cases h; have e1 := ih h1; exact e1
    | act g a =>
      rw [Peg.run] at h
      rw [normP]
      split at h
      · cases h
      · next h1 => cases h; exact ih h1
      · next h1 => cases h; have e1 := ih h1; exact e1

end

/-! ### The grammar -/

def ntOf : Nat → Option NT
  | 1 => some .statements | 2 => some .stmt | 3 => some .sets | 4 => some .eqs | 5 => some .cmps | 6 => some .bitors | 7 => some .bitand
  | 8 => some .bitshift | 9 => some .sum | 10 => some .product | 11 => some .power | 12 => some .expr | 13 => some .atom | 14 => some .call
  | 15 => some .extern | 16 => some .name | 17 => some .lickItems | 18 => some .lickItem | 19 => some .loose | 20 => some .closure
  | 21 => some .list | 22 => some .block | 23 => some .lick | 24 => some .group | 25 => some .tuple | 28 => some .value
  | 92 => some .unqChar
  | _ => none

mutual
def normE (nm : Nat → Option N) : Exp → Option N
  | .any => some (.set (Bs.mk fun _ => true))
  | .chr c => some (.set (Bs.mk (· == c)))
  | .str s => some (litN s)
  | .cls t => (makeCharClass t).map fun bits => .set (Bs.mk fun b => bits b.toNat)
  | .name r _ => nm r
  | .act _ => some .eps
  | .pred _ => none
  | .open => some .eps
  | .close => some .eps
  | .err e _ => normE nm e
  | .alt l => normAlt nm l
  | .seq l => normSeq nm l
  | .peek e => (normE nm e).map fun n => .not (.not n)
  | .not e => (normE nm e).map .not
  | .opt e => (normE nm e).map fun n => altN n .eps
  | .star e => (normE nm e).map .star
  | .plus e => (normE nm e).map fun n => seqN n (.star n)
def normAlt (nm : Nat → Option N) : Exps → Option N
  | .nil => none
  | .cons e l => if l.isNil then normE nm e else
    match normE nm e with
    | some a => (normAlt nm l).map (altN a)
    | none => none
def normSeq (nm : Nat → Option N) : Exps → Option N
  | .nil => some .eps
  | .cons e l => match normE nm e with
    | some a => (normSeq nm l).map (seqN a)
    | none => none
end

/-- Rules that are not recursive are expanded. -/
def normR (gr : Grammar) : Nat → Nat → Option N
  | 0, r => (ntOf r).map .nt
  | f+1, r => match ntOf r with
    | some n => some (.nt n)
    | none => match gr[r]? with
      | some ru => normE (normR gr f) ru.body
      | none => none

/-- The rules agree with Model/Syntax.lean. -/
def agree : Bool := (List.range potionGrammar.length).all fun r => match ntOf r, potionGrammar[r]? with
  | some n, some ru => decide (normE (normR potionGrammar 10) ru.body = some (normP (Peg.rule n)))
  | _, _ => true

theorem agree_ok : agree = true := by decide +kernel

end Potion.Greg
