import Verif.Model.Listing
import Verif.Props.SigShow
/-! Proofs for C82. -/
namespace Potion.Show
open Potion Potion.Dec
open Potion.Spec hiding Op
open Potion.Bytes hiding Op
open Potion.Sig (Item Decl encode sigText)
open Potion.CompileAll (Ins Op)

/-- `f` appends the text. -/
def Grows (f : Option Buf → Option Buf) (s : List Byte) : Prop :=
  ∀ b t, Holds b t → t.length + s.length < 2 ^ 31 → ∃ b', f (some b) = some b' ∧ Holds b' (t ++ s)

theorem Grows.of {f s} (h : s.length < 2 ^ 31 → Grows f s) : Grows f s := fun b t hb hl => h (by omega) b t hb hl
theorem Grows.id {s : List Byte} (h : s = []) : Grows (fun o => o) s := fun b t hb _ => ⟨b, rfl, by subst h; simpa using hb⟩
theorem Grows.put (junk) (s : List Byte) : Grows (put junk s) s := fun _ _ hb hl => printf_spec hb junk s hl
theorem Grows.put' (junk) {s s' : List Byte} (e : s = s') : Grows (Show.put junk s) s' := e ▸ Grows.put junk s
theorem Grows.obj (junk) {s : List Byte} {o} (h : o = some s) : Grows (obj junk o) s := by
  subst h; exact fun _ _ hb hl => obj_ok junk hb hl
theorem Grows.comp {f g : Option Buf → Option Buf} {s s' : List Byte} (hf : Grows f s) (hg : Grows g s') : Grows (fun o => g (f o)) (s ++ s') := by
  intro b t hb hl
  rw [List.length_append] at hl
  obtain ⟨b1, e1, h1⟩ := hf b t hb (by omega)
  obtain ⟨b2, e2, h2⟩ := hg b1 _ h1 (by rw [List.length_append]; omega)
  exact ⟨b2, by dsimp only; rw [e1, e2], by simpa using h2⟩
theorem Grows.ite {c : Prop} [Decidable c] {f g : Option Buf → Option Buf} {s s' : List Byte} (hf : c → Grows f s) (hg : ¬ c → Grows g s') :
    Grows (fun o => if c then f o else g o) (if c then s else s') := by
  by_cases h : c
  · simp only [if_pos h]; exact hf h
  · simp only [if_neg h]; exact hg h
theorem Grows.cast {f : Option Buf → Option Buf} {s s' : List Byte} (e : s = s') (h : Grows f s) : Grows f s' := e ▸ h

theorem natural_text {n : Nat} (h : n < 10 ^ 20) : natText 20 n = natural n := natText_digits 20 n h (by omega)
theorem integer_text {i : Int} (h : InRange i) : intText i = integer i := by
  have := numString_text h
  unfold numString at this
  rw [pnInt_pnNum_of_fits (by unfold Fits63; unfold InRange at h; omega)] at this
  rw [this, integer, Datum.text]

theorem rows_length (head : String) : ∀ (l : List (List Byte)) (k : Nat), l.length ≤ (rows head k l).length
  | [], _ => by simp
  | v :: l, k => by
    have := rows_length head l (k + 1)
    have e : (chars "\n").length = 1 := rfl
    rw [rows]; simp only [List.length_append, List.length_cons, e]; omega

theorem section_grows (junk) (head : String) : ∀ (l : List (List Byte)) (k : Nat), k + l.length < 2 ^ 32 → Grows (section_ junk head (l.map some) k) (rows head k l)
  | [], _, _ => Grows.id rfl
  | v :: l, k, h => by
    simp only [List.length_cons] at h
    have := ((Grows.put junk (chars head)).comp (Grows.obj junk (rfl : some v = some v))).comp
      (Grows.put' junk (s := chars " ; " ++ natText 20 k ++ chars "\n") (s' := chars " ; " ++ natural k ++ chars "\n") (by rw [natural_text (by omega)]))
    refine Grows.cast ?_ (this.comp (section_grows junk head l (k + 1) (by omega)))
    rw [rows]; simp only [List.append_assoc]
theorem section_ok (junk) (head : String) (l : List (List Byte)) : Grows (section_ junk head (l.map some) 0) (rows head 0 l) :=
  .of fun h => section_grows junk head l 0 (by have := rows_length head l 0; omega)

theorem ops_ok (o : Op) : ∃ n, potionOps[o.ctorIdx]? = some (opName o, n) ∧ (decide (n > 1) = two o) := by
  cases o <;> exact ⟨_, rfl, rfl⟩

theorem tupleAt_ok {l : List (List Byte)} {i : Int} (h : 0 ≤ i ∧ i < l.length) : tupleAt l i = some (l.getD i.toNat []) := by
  unfold tupleAt
  rw [if_neg (by omega), List.getD_eq_getElem?_getD, List.getElem?_eq_getElem (by omega)]
  rfl

theorem immediate_ok {b : Int} (hr : -2048 ≤ b ∧ b < 2048) (h : b % 2 = 1 ∨ b = 0 ∨ b = 2 ∨ b = 6) :
    elemText (if b % 2 = 1 then .num (b / 2) else .other (BitVec.ofInt 64 b)) = some (immediate b) := by
  unfold immediate
  by_cases ho : b % 2 = 1
  · rw [if_pos ho, if_pos ho, elem_ok (v := .num (b / 2)) (show InRange (b / 2) by unfold InRange; omega)]; rfl
  · rw [if_neg ho, if_neg ho]
    rcases h with h | rfl | rfl | rfl
    · exact absurd h ho
    · rfl
    · rfl
    · rfl

theorem cInt_id {i : Int} (h : -(2 ^ 31) ≤ i ∧ i < 2 ^ 31) : cInt i = i := by
  unfold cInt; rw [Int.bmod_def]; omega

theorem comment_grows (junk) {locals values : List (List Byte)} {i : Ins} (h : InsOk locals values i) {k : Nat} (hk : k < 2 ^ 30) :
    Grows (comment junk locals values (k + 1) i) (remark locals values k i) := by
  obtain ⟨ha, hb, h1, h2, h3⟩ := h
  have tgt : ∀ x : Int, -2048 ≤ x ∧ x < 2048 → chars "; to " ++ intText (cInt (((k + 1 : Nat) : Int) + x + 1)) = chars "; to " ++ integer (k + x + 2) := by
    intro x hx
    rw [cInt_id (by omega), integer_text (by unfold InRange; omega)]
    congr 2
    omega
  obtain ⟨op, a, b⟩ := i
  dsimp only at ha hb h1 h2 h3
  cases op
  case jmp => exact Grows.put' junk (tgt _ ha)
  case testjmp => exact Grows.put' junk (tgt _ hb)
  case notjmp => exact Grows.put' junk (tgt _ hb)
  case loadpn => exact (Grows.put junk (chars "; ")).comp (Grows.obj junk (immediate_ok hb (h3 rfl)))
  case loadk => exact (Grows.put junk (chars "; ")).comp (Grows.obj junk (tupleAt_ok (h1 rfl)))
  case setlocal => exact (Grows.put junk (chars "; ")).comp (Grows.obj junk (tupleAt_ok (h2 (.inl rfl))))
  case getlocal => exact (Grows.put junk (chars "; ")).comp (Grows.obj junk (tupleAt_ok (h2 (.inr rfl))))
  all_goals exact Grows.id rfl

theorem line_length (locals values n k i) : 20 ≤ (line locals values n k i).length := by
  have e : (chars "\n").length = 1 := rfl
  unfold line
  dsimp only
  generalize (chars "[" ++ _ ++ _ ++ _ ++ _ ++ _ ++ _) = s
  rw [List.length_append, List.length_append, e]
  by_cases h : s.length < 20
  · rw [if_pos h, padRight, List.length_append, List.length_replicate]; omega
  · rw [if_neg h, List.length_append]; omega

theorem lines_length (locals values : List (List Byte)) (n : Nat) : ∀ (l : List Ins) (k : Nat), 20 * l.length ≤ (lines locals values n k l).length
  | [], _ => by simp
  | i :: l, k => by
    have := lines_length locals values n l (k + 1)
    have := line_length locals values n k i
    rw [lines, List.length_append, List.length_cons]; omega

theorem insRow_grows (junk) (x y : List Byte) (m : Nat) : Grows (insRow junk x y m)
    (if (x ++ (if m > 1 then y else [])).length < 20 then padRight 20 (x ++ (if m > 1 then y else [])) else x ++ (if m > 1 then y else []) ++ chars " ") := by
  unfold insRow
  dsimp only
  by_cases hm : m > 1
  · simp only [if_pos hm, List.length_append]
    by_cases h : x.length + y.length < 20
    · simp only [if_pos h]
      refine Grows.cast ?_ (((Grows.put junk x).comp (Grows.put junk y)).comp (Grows.put junk (List.replicate (20 - (x.length + y.length)) 0x20#8)))
      rw [padRight, List.length_append]
    · simp only [if_neg h]
      exact ((Grows.put junk x).comp (Grows.put junk y)).comp (Grows.put junk (chars " "))
  · simp only [if_neg hm, List.append_nil, Nat.add_zero]
    by_cases h : x.length < 20
    · simp only [if_pos h]
      exact (Grows.put junk x).comp (Grows.put junk (List.replicate (20 - x.length) 0x20#8))
    · simp only [if_neg h]
      exact (Grows.put junk x).comp (Grows.put junk (chars " "))

theorem insLoop_grows (junk) (locals values : List (List Byte)) (n : Nat) : ∀ (l : List Ins) (k : Nat), (∀ i ∈ l, InsOk locals values i) → k + l.length < 2 ^ 30 →
    Grows (insLoop junk locals values (numCols n) l (k + 1)) (lines locals values n k l)
  | [], _, _, _ => Grows.id rfl
  | i :: l, k, h, hl => by
    simp only [List.length_cons] at hl
    have hi := h i (by simp)
    have ih := insLoop_grows junk locals values n l (k + 1) (fun j hj => h j (by simp [hj])) (by omega)
    obtain ⟨m, e1, e2⟩ := ops_ok i.op
    have em : (m > 1) ↔ two i.op = true := by rw [← e2]; simp
    have e3 : insHead (numCols n) (k + 1) (opName i.op) i.a =
        chars "[" ++ padLeft (Nat.clog 10 n) (natural (k + 1)) ++ chars "] " ++ padRight 8 (chars (opName i.op)) ++ chars " " ++ integer i.a := by
      unfold insHead
      rw [natural_text (by omega), integer_text (by have := hi.1; unfold InRange; omega)]; rfl
    have e4 : intText i.b = integer i.b := integer_text (by have := hi.2.1; unfold InRange; omega)
    have e5 : insLoop junk locals values (numCols n) (i :: l) (k + 1) = fun o => insLoop junk locals values (numCols n) l (k + 1 + 1)
        (Show.put junk (chars "\n") (comment junk locals values (k + 1) i (insRow junk (insHead (numCols n) (k + 1) (opName i.op) i.a) (chars " " ++ intText i.b) m o))) := by
      funext o
      rw [insLoop, e1]
    rw [e5, e3, e4, lines, line]
    generalize chars "[" ++ padLeft (Nat.clog 10 n) (natural (k + 1)) ++ chars "] " ++ padRight 8 (chars (opName i.op)) ++ chars " " ++ integer i.a = x
    generalize chars " " ++ integer i.b = y
    have hr := insRow_grows junk x y m
    have ec : (if m > 1 then y else []) = if two i.op = true then y else [] := by
      by_cases h2 : two i.op = true
      · rw [if_pos (em.2 h2), if_pos h2]
      · rw [if_neg (fun h => h2 (em.1 h)), if_neg h2]
    rw [ec] at hr
    exact ((hr.comp (comment_grows junk hi (by omega))).comp (Grows.put junk (chars "\n"))).comp ih

theorem insLoop_ok (junk) (locals values : List (List Byte)) (code : List Ins) (h : ∀ i ∈ code, InsOk locals values i) :
    Grows (insLoop junk locals values (numCols code.length) code 1) (lines locals values code.length 0 code) :=
  .of fun hl => insLoop_grows junk locals values code.length code 0 h (by have := lines_length locals values code.length code 0; omega)

end Potion.Show
