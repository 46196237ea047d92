import Verif.Model.Call
import Verif.Spec.Call
import Verif.Props.Signatures
import Mathlib.Data.List.Basic
namespace Potion.Call
open Potion Potion.Sig

theorem toChar_ascii {t : Int} (h : 0 ≤ t ∧ t < 128) : toChar t = t := by
  unfold toChar; rw [Int.bmod_def]; omega

theorem typeDefault_zero (t : Int) : typeDefault t = zeroOf t := by
  unfold typeDefault zeroOf
  have h1 : (('N'.toNat : Nat) : Int) = 78 := rfl
  have h2 : (('I'.toNat : Nat) : Int) = 73 := rfl
  have h3 : (('S'.toNat : Nat) : Int) = 83 := rfl
  rw [h1, h2, h3]
  by_cases a : t = 78
  · simp [a]
  · by_cases b : t = 73
    · simp [b]
    · simp [a, b]

/-- A plain parameter that no separator follows. -/
theorem atLoop_plain : ∀ (ds : List Decl) (c index : Int), (∀ d ∈ ds, d.Ok) → (∀ d ∈ ds, d.Not58) → c < index →
    ∀ (n : List (BitVec 8)), (params ds)[(index - c - 1).toNat]? = some (n, .plain) → (followed ds)[(index - c - 1).toNat]? = some false →
      atLoop index (encode ds) c = some (some [.str n])
  | [], c, index, _, _, _ => by simp [params]
  | d :: ds, c, index, ok, n58, hc => by
    have ih := fun c hc => atLoop_plain ds c index (fun d h => ok d (by simp [h])) (fun d h => n58 d (by simp [h])) hc
    have okd := ok d (by simp)
    have nd := n58 d (by simp)
    simp only [encode, List.flatMap_cons] at ih ⊢
    have hne : ¬ c = index := by omega
    cases d with
    | bar => simpa [Decl.items, atLoop, count_num, params, followed, hne] using ih c hc
    | dot => simpa [Decl.items, atLoop, count_num, params, followed, hne] using ih c hc
    | param n k =>
      intro n' hk hf
      by_cases hi : c + 1 = index
      · have hz : (index - c - 1).toNat = 0 := by omega
        rw [hz] at hk hf
        obtain ⟨rfl, rfl⟩ : n = n' ∧ k = .plain := by simpa [params] using hk
        simp only [Decl.items, List.cons_append, List.nil_append, atLoop, count_str, hi, if_true, Option.some.injEq]
        rcases ds with _ | ⟨d, ds⟩
        · simp
        · rcases d with ⟨n', _ | c | v | ⟨_ | t, m⟩⟩ | _ | _ <;> simp [followed, Decl.items, Item.isNum] at hf ⊢
      · have hlt : c + 1 < index := by omega
        have ih1 := ih (c + 1) hlt
        have hs : (index - c - 1).toNat = (index - (c + 1) - 1).toNat + 1 := by omega
        have hstep : atLoop index (Decl.items (.param n k) ++ List.flatMap Decl.items ds) c = atLoop index (List.flatMap Decl.items ds) (c + 1) := by
          cases k with
          | plain => simp [Decl.items, atLoop, count_str, hi]
          | typed t => simp [Decl.items, atLoop, count_str, hi, count_num okd.1]
          | modified t m =>
            cases t with
            | none => simp [Decl.items, atLoop, count_str, hi, count_num okd.2.1, count_other]
            | some t => simp [Decl.items, atLoop, count_str, hi, count_num okd.2.1, count_num (okd.1 t rfl).1]
          | deflt v =>
            obtain ⟨c', h1, h2⟩ := count_colon v (c + 1)
            have : ¬ c' = index := by omega
            simp only [Decl.items, List.cons_append, List.nil_append, atLoop, count_str, hi, if_false, List.head?_cons, h1, this,
              count_deflt v nd _ _ _ h1]
        rw [hstep]
        refine ih1 n' ?_ ?_
        · rw [hs] at hk
          simpa [params] using hk
        · rw [hs] at hf
          simpa [followed] using hf

theorem sigAt_plain {ds : List Decl} (h : Proper ds) {j : Nat} {n} (hp : (params ds)[j]? = some (n, .plain)) (hf : (followed ds)[j]? = some false) :
    sigAt (encode ds) j = some (some [.str n]) := by
  refine atLoop_plain ds (-1) j h.ok h.not58 (by omega) n ?_ ?_
  · rw [show ((j : Int) - -1 - 1).toNat = j by omega]; exact hp
  · rw [show ((j : Int) - -1 - 1).toNat = j by omega]; exact hf

theorem leftOut_ok {ds : List Decl} (h : Proper ds) {j : Nat} {n k v} (hp : (params ds)[j]? = some (n, k)) (hv : k.missing = some v) :
    leftOut (encode ds) j = some (some v) := by
  obtain ⟨r, h1, h2⟩ := (C29_at_partial ds h.ok h.not58 j).1 n k hp
  have ha := h.ascii _ (List.mem_of_getElem? hp)
  unfold leftOut
  rw [h1]
  rcases k with _ | c | d | ⟨_ | t, m⟩
  · cases hv
  · cases hv; rw [h2]; simp [toChar_ascii ha, typeDefault_zero]
  · cases hv; rw [h2]; simp
  · cases hv
  · cases hv; rw [h2]; simp [toChar_ascii ha, typeDefault_zero]

theorem trunc_small {x : Int} (h0 : 0 ≤ x) (h1 : x < 2048) : Vm.trunc12 x = x := by
  unfold Vm.trunc12; rw [Int.bmod_def]; omega

/-- The loop stores the values in the registers after the arguments. -/
theorem fill_ok {ds : List Decl} (h : Proper ds) (a : Nat) : ∀ (l : List Item) (i : Nat) (b : Int) (r : Regs),
    Rest ds i l → 0 ≤ b → b + l.length < 2048 → a + 2 + i + l.length ≤ r.room →
    ∃ r', fill (encode ds) a l.length i b r = some (b + l.length, r') ∧ r'.room = r.room ∧
      (∀ j, j < a + 2 + i → r'.at_ j = r.at_ j) ∧ ∀ j, ∀ hj : j < l.length, r'.at_ (a + 2 + i + j) = l[j]
  | [], i, b, r, _, _, _, _ => ⟨r, by simp [fill], rfl, fun _ _ => rfl, fun _ hj => nomatch hj⟩
  | v :: l, i, b, r, hr, h0, hb, hroom => by
    simp only [List.length_cons] at hb hroom ⊢
    unfold Rest at hr
    have hl : i < (params ds).length := by
      rcases Nat.lt_or_ge i (params ds).length with h' | h'
      · exact h'
      · rw [List.drop_eq_nil_of_le h'] at hr; cases hr
    rw [List.drop_eq_getElem_cons hl] at hr
    simp only [List.map_cons, List.cons.injEq] at hr
    have h1 : leftOut (encode ds) i = some (some v) := leftOut_ok h (n := (params ds)[i].1) (k := (params ds)[i].2) (by rw [List.getElem?_eq_getElem hl]) hr.1
    have h2 : r.set (a + i + 2) v = some { r with at_ := fun j => if j = a + i + 2 then v else r.at_ j } := by
      unfold Regs.set; rw [if_pos (by omega)]
    obtain ⟨r', e1, e2, e3, e4⟩ := fill_ok h a l (i + 1) (b + 1) { r with at_ := fun j => if j = a + i + 2 then v else r.at_ j } hr.2 (by omega) (by omega) (by simp only; omega)
    refine ⟨r', ?_, e2, fun j hj => ?_, fun j hj => ?_⟩
    · unfold fill
      rw [h1]
      dsimp only
      rw [h2]
      dsimp only
      rw [trunc_small (by omega) (by omega), e1]
      congr 2; omega
    · rw [e3 j (by omega)]; simp only; rw [if_neg (by omega)]
    · rcases j with _ | j
      · rw [e3 _ (by omega)]; simp only; rw [if_pos (by omega)]; rfl
      · have := e4 j (by simpa using hj)
        rw [show a + 2 + i + (j + 1) = a + 2 + (i + 1) + j by omega, this]; rfl

theorem passed_eq : ∀ n, 1 ≤ n → n ≤ 15 → passed n = some (List.range n) := by
  intro n h1 h2
  have : ∀ n : Fin 16, 1 ≤ n.1 → passed n.1 = some (List.range n.1) := by decide
  exact this ⟨n, by omega⟩ h1
theorem passed_none {n} (h : 15 < n) : passed n = none := by
  unfold passed; split <;> first | omega | rfl

theorem mapM_get {argv : Nat → Option Item} {l : List Item} (h : ∀ i, ∀ hi : i < l.length, argv i = some l[i]) :
    (List.range l.length).mapM argv = some l := by
  have key : ∀ (m : Nat) (x : List Item) (f : Nat → Option Item), x.length = m → (∀ i, ∀ hi : i < x.length, f i = some x[i]) → (List.range m).mapM f = some x := by
    intro m
    induction m with
    | zero => intro x f hx _; rw [List.length_eq_zero_iff.1 hx]; rfl
    | succ m ih =>
      intro x f hx hf
      rcases x with _ | ⟨y, x⟩
      · cases hx
      · rw [List.range_succ_eq_map, List.mapM_cons, hf 0 (by simp)]
        have := ih x (fun i => f (i + 1)) (by simpa using hx) (fun i hi => by rw [hf (i + 1) (by simpa using hi)]; rfl)
        rw [List.mapM_map]
        change (do let b ← some y; let bs ← (List.range m).mapM (fun i => f (i+1)); pure (b :: bs)) = _
        rw [this]; rfl
  exact key _ l argv rfl h

theorem arg32 {n : Nat} (h : n < 2048) : (BitVec.ofInt 32 (n : Int)).toNat = n := by
  rw [BitVec.ofInt_natCast, BitVec.toNat_ofNat]; omega

/-- `potion_call` with at most fifteen arguments passes them all. -/
theorem potionCall_ok {cl : Item} {argv : Nat → Option Item} {l : List Item} (h : ∀ i, ∀ hi : i < l.length, argv i = some l[i]) (h1 : 1 ≤ l.length) (h2 : l.length ≤ 15)
    {n : Int} (hn : n = l.length) : potionCall true cl n argv = some (.calls l) := by
  subst hn
  unfold potionCall
  dsimp only
  rw [arg32 (by omega)]
  rw [if_neg (by simp), if_neg (by omega), passed_eq _ h1 h2]
  dsimp only
  rw [mapM_get h]; rfl

theorem potionCall_many {cl : Item} {argv : Nat → Option Item} {n : Int} {m : Nat} (hn : n = m) (h : 15 < m) (h' : m < 2048) : potionCall true cl n argv = some .nil := by
  subst hn
  unfold potionCall
  dsimp only
  rw [arg32 h', if_neg (by simp), if_neg (by omega), passed_none h]

theorem closure_ok {ds : List Decl} (h : Proper ds) : closure (encode ds) = some ⟨some (encode ds), (params ds).length, (mandatory ds).length⟩ := by
  unfold closure
  have : (encode ds).length > 0 := by
    rcases ds with _ | ⟨d, ds⟩
    · exact absurd rfl h.some
    · rcases d with ⟨n, _ | c | v | ⟨_ | t, m⟩⟩ | _ | _ <;> simp [encode, Decl.items]
  rw [if_pos this, C29_arity_partial ds h.ok h.not58, C29_minargs ds h.ok]
  rfl

theorem mandatory_le : ∀ (ds : List Decl), (mandatory ds).length ≤ (params ds).length
  | [] => by simp [mandatory]
  | .bar :: ds => by simp [mandatory]
  | .dot :: ds => by simpa [mandatory, params] using mandatory_le ds
  | .param n .plain :: ds => by simpa [mandatory, params] using mandatory_le ds
  | .param n (.typed _) :: ds => by simpa [mandatory, params] using mandatory_le ds
  | .param n (.modified _ _) :: ds => by simpa [mandatory, params] using mandatory_le ds
  | .param n (.deflt _) :: ds => by simp [mandatory]

end Potion.Call
