import Verif.Proof.Call
/-!
C71: calls of built-in functions. C72: calls of compiled functions from C.
-/
namespace Potion.Call
open Potion Potion.Sig

/-- The arguments of the call are in the registers after the closure: `self`, then the arguments. -/
def Placed (r : Regs) (a : Nat) (self : Item) (given : List Item) : Prop :=
  ∀ i, ∀ hi : i < (self :: given).length, r.get (a + 1 + i) = some ((self :: given)[i])

theorem call_fill {ds : List Decl} (h : Proper ds) {given rest : List Item} (hn : Allowed ds given.length) (hr : Rest ds given.length rest)
    {cl self : Item} {a : Nat} {r : Regs} (hp : Placed r a self given) (hroom : a + 2 + (params ds).length ≤ r.room) (hb : a + 2 + (params ds).length < 2048)
    {c : Callee} (hc : closure (encode ds) = some c) :
    ∃ r' : Regs, call cl c a (a + 1 + given.length) r = potionCall true cl (self :: (given ++ rest)).length (fun i => r'.get (a + 1 + i)) ∧
      ∀ i, ∀ hi : i < (self :: (given ++ rest)).length, r'.get (a + 1 + i) = some (self :: (given ++ rest))[i] := by
  rw [closure_ok h] at hc
  cases hc
  have hlen : rest.length = (params ds).length - given.length := by
    have := congrArg List.length hr
    simpa using this.symm
  have hle : given.length ≤ (params ds).length := by
    rcases hn with e | ⟨_, e⟩
    · omega
    · exact e
  obtain ⟨r', e1, e2, e3, e4⟩ := fill_ok h a rest given.length (a + 1 + given.length) r hr (by omega) (by omega) (by omega)
  refine ⟨r', ?_, fun i hi => ?_⟩
  · unfold call
    dsimp only
    have e5 : ((a : Int) + 1 + given.length - a - 1) = given.length := by omega
    rw [e5]
    have e6 : sigCheck ⟨some (encode ds), (params ds).length, (mandatory ds).length⟩ (params ds).length given.length = false := by
      unfold sigCheck
      rcases hn with e | ⟨e, _⟩
      · rw [if_neg (by omega)]
      · split
        · rw [if_neg (by dsimp only; omega), if_neg (by omega)]
        · rfl
    rw [e6, if_neg (by simp), if_neg (by omega)]
    have e7 : (((params ds).length : Int) - given.length).toNat = rest.length := by omega
    rw [e7, Int.toNat_natCast, e1]
    dsimp only
    congr 1
    simp only [List.length_cons, List.length_append]
    omega
  · simp only [List.length_cons, List.length_append] at hi
    unfold Regs.get
    rw [if_pos (by omega)]
    have hg : ∀ j, ∀ hj : j < (self :: given).length, r.at_ (a + 1 + j) = (self :: given)[j] := by
      intro j hj
      have := hp j hj
      unfold Regs.get at this
      split at this
      · exact Option.some.inj this
      · cases this
    rcases Nat.lt_or_ge i (given.length + 1) with hlt | hge
    · rw [e3 _ (by omega), hg i (by simpa using hlt)]
      congr 1
      simp only [← List.cons_append]
      rw [List.getElem_append_left]
    · have := e4 (i - given.length - 1) (by omega)
      rw [show a + 2 + given.length + (i - given.length - 1) = a + 1 + i by omega] at this
      rw [this]
      congr 1
      simp only [← List.cons_append]
      rw [List.getElem_append_right (by simpa using hge)]
      congr 1

/-- C71: a built-in function that is called with an allowed number of arguments is called once, with `self`, the given
arguments in order and, for the parameters left out, their defaults or the zero values of their types. Partial: it has at
most fourteen parameters (`C71_refuted_many`), and every parameter left out has a default or a type (`C71_refuted_untyped`). -/
theorem C71_arguments_partial {ds : List Decl} (h : Proper ds) {given rest : List Item} (hn : Allowed ds given.length) (hr : Rest ds given.length rest)
    {cl self : Item} {a : Nat} {r : Regs} (hp : Placed r a self given) (hroom : a + 2 + (params ds).length ≤ r.room) (hb : a + 2 + (params ds).length < 2048)
    (hm : (params ds).length ≤ 14) :
    ∃ c, closure (encode ds) = some c ∧ call cl c a (a + 1 + given.length) r = some (.calls (self :: (given ++ rest))) := by
  refine ⟨_, closure_ok h, ?_⟩
  obtain ⟨r', e1, e2⟩ := call_fill (cl := cl) h hn hr hp hroom hb (closure_ok h)
  rw [e1]
  refine potionCall_ok e2 (by simp) ?_ rfl
  have hlen := congrArg List.length hr
  simp only [List.length_map, List.length_drop] at hlen
  simp only [List.length_cons, List.length_append]
  rcases hn with e | ⟨_, e⟩ <;> omega

/-- C71: with any other number of arguments the function is not called: the run ends with an error. -/
theorem C71_refuses {ds : List Decl} (h : Proper ds) {given : List Item} (hn : ¬ Allowed ds given.length) (cl : Item) (a : Nat) (r : Regs) :
    ∃ c, closure (encode ds) = some c ∧ call cl c a (a + 1 + given.length) r = some .ends := by
  refine ⟨_, closure_ok h, ?_⟩
  unfold call
  dsimp only
  have e5 : ((a : Int) + 1 + given.length - a - 1) = given.length := by omega
  rw [e5]
  unfold Allowed at hn
  have e6 : sigCheck ⟨some (encode ds), (params ds).length, (mandatory ds).length⟩ (params ds).length given.length = true := by
    unfold sigCheck
    rw [if_pos (by omega)]
    dsimp only
    by_cases h1 : (given.length : Int) < (mandatory ds).length
    · rw [if_pos h1]
    · rw [if_neg h1, if_pos (by omega)]
  rw [e6, if_pos rfl]

/-- C71: a built-in function without a signature is called with `self` and the arguments as they are, up to fourteen. -/
theorem C71_undeclared {given : List Item} {cl self : Item} {a : Nat} {r : Regs} (hp : Placed r a self given) (hm : given.length ≤ 14) :
    ∃ c, closure [] = some c ∧ call cl c a (a + 1 + given.length) r = some (.calls (self :: given)) := by
  refine ⟨_, rfl, ?_⟩
  unfold call
  exact potionCall_ok hp (by simp) (by simpa using hm) (by simp only [List.length_cons]; omega)

/-- C71 fails for functions of fifteen or more parameters: no call with an allowed number of arguments calls them; the answer is nil. -/
theorem C71_refuted_many {ds : List Decl} (h : Proper ds) {given rest : List Item} (hn : Allowed ds given.length) (hr : Rest ds given.length rest)
    {cl self : Item} {a : Nat} {r : Regs} (hp : Placed r a self given) (hroom : a + 2 + (params ds).length ≤ r.room) (hb : a + 2 + (params ds).length < 2048)
    (hm : 15 ≤ (params ds).length) :
    ∃ c, closure (encode ds) = some c ∧ call cl c a (a + 1 + given.length) r = some .nil := by
  refine ⟨_, closure_ok h, ?_⟩
  obtain ⟨r', e1, _⟩ := call_fill (cl := cl) h hn hr hp hroom hb (closure_ok h)
  rw [e1]
  have hlen := congrArg List.length hr
  simp only [List.length_map, List.length_drop] at hlen
  have hl : (self :: (given ++ rest)).length = (params ds).length + 1 := by
    simp only [List.length_cons, List.length_append]
    rcases hn with e | ⟨_, e⟩ <;> omega
  exact potionCall_many rfl (by omega) (by omega)

/-- C71 fails when a parameter with neither type nor default is left out: the default is read outside of a list of one
element. -/
theorem C71_refuted_untyped {ds : List Decl} (h : Proper ds) {n : Nat} (hn : Allowed ds n) {x} (hx : (params ds)[n]? = some (x, .plain)) (hf : (followed ds)[n]? = some false)
    (cl : Item) (a : Nat) (r : Regs) : ∃ c, closure (encode ds) = some c ∧ call cl c a (a + 1 + n) r = none := by
  refine ⟨_, closure_ok h, ?_⟩
  have hl : n < (params ds).length := by
    rcases Nat.lt_or_ge n (params ds).length with h' | h'
    · exact h'
    · rw [List.getElem?_eq_none h'] at hx; cases hx
  unfold call
  dsimp only
  have e5 : ((a : Int) + 1 + n - a - 1) = n := by omega
  rw [e5]
  have e6 : sigCheck ⟨some (encode ds), (params ds).length, (mandatory ds).length⟩ (params ds).length n = false := by
    unfold sigCheck
    rcases hn with e | ⟨e, _⟩
    · rw [if_neg (by omega)]
    · split
      · rw [if_neg (by dsimp only; omega), if_neg (by omega)]
      · rfl
  rw [e6, if_neg (by simp), if_neg (by omega)]
  obtain ⟨k, hk⟩ : ∃ k, (((params ds).length : Int) - n).toNat = k + 1 := ⟨(params ds).length - n - 1, by omega⟩
  rw [hk, Int.toNat_natCast]
  unfold fill leftOut
  rw [sigAt_plain h hx hf]
  simp

/-- C71: `potion_call(P, cl, argc, argv)` calls the function of the closure once with the first `argc` elements of `argv`, in
order, for `argc` from 1 to 15, and with the closure itself as `self` for 0. -/
theorem C71_potion_call {cl : Item} {argv : Nat → Option Item} {l : List Item} (h : ∀ i, ∀ hi : i < l.length, argv i = some l[i]) (hl : l.length ≤ 15) :
    potionCall true cl l.length argv = some (.calls (if l = [] then [cl] else l)) := by
  rcases l with _ | ⟨x, l⟩
  · rfl
  · exact potionCall_ok h (by simp) hl rfl

/-- C71: an empty closure is not called: the answer is an error. -/
theorem C71_empty (cl : Item) (argc : Int) (argv : Nat → Option Item) : potionCall false cl argc argv = some .empty := rfl

/-! Example: `f write("ab")`, with the signature `buf=S|size=N,n:=1` (lib/buffile.c:311), calls the function with size 0 and n 1. -/
def exDs : List Decl := [.param [98, 117, 102] (.typed 83), .bar, .param [115, 105, 122, 101] (.typed 78), .param [110] (.deflt (.num 1))]
theorem exProper : Proper exDs := by
  refine ⟨?_, ?_, ?_, by simp [exDs]⟩ <;> simp [exDs, Decl.Ok, Decl.Not58, params, Kind.Ascii, Letter]
def exRegs : Regs := ⟨fun i => if i = 3 then .other 4096 else if i = 4 then .str [97, 98] else .other 0, 100⟩
example : Allowed exDs 1 ∧ Rest exDs 1 [.num 0, .num 1] ∧ Placed exRegs 2 (.other 4096) [.str [97, 98]] := by
  refine ⟨Or.inr (by decide), rfl, fun i hi => ?_⟩
  simp only [List.length_cons, List.length_nil] at hi
  obtain rfl | rfl : i = 0 ∨ i = 1 := by omega
  · rfl
  · rfl
example : (closure (encode exDs)).bind (fun c => call (.other 8192) c 2 4 exRegs) = some (.calls [.other 4096, .str [97, 98], .num 0, .num 1]) := by decide +kernel
example : ¬ Allowed exDs 4 := by unfold Allowed; decide

/-! ## Calls of compiled functions from C -/

/-- The type character of the values an optional parameter takes: its type, or the type of its default. -/
def World.wants (W : World) : Kind → Option Int
  | .plain => none
  | .typed t => some t
  | .deflt v => some (W.char v)
  | .modified (some t) _ => some t
  | .modified none _ => none

/-- The given arguments of optional parameters are of the declared types, and their words are not taken for foreign
pointers; an optional parameter without type and default is not followed by a separator. -/
def World.Suits (W : World) (ds : List Decl) (given : List Item) : Prop :=
  ∀ j k v x, (mandatory ds).length ≤ j → (params ds)[j]? = some (x, k) → given[j]? = some v →
    (∀ t, W.wants k = some t → W.char v = t ∧ W.ffi v = false) ∧ (k = .plain → (followed ds)[j]? = some false)

/-- Type characters are ASCII (internal.c:206-234). -/
def World.Ascii (W : World) : Prop := ∀ w, 0 ≤ W.kind w ∧ W.kind w < 128

theorem World.char_ascii {W : World} (hW : W.Ascii) (v : Item) : 0 ≤ W.char v ∧ W.char v < 128 := by
  rcases v with s | i | w
  · simp [World.char]
  · simp [World.char]
  · unfold World.char
    dsimp only
    split
    · omega
    · split
      · omega
      · split
        · omega
        · exact hW w

/-- The parameter `j` of a call whose caller passed `given`. -/
theorem param_given {W : World} (hW : W.Ascii) {ds : List Decl} (h : Proper ds) {given : List Item} (hs : W.Suits ds given) {j : Nat} (hj : j < given.length)
    (hl : j < (params ds).length) {told : Nat} (ht : told = 0 ∨ j < told) {va : Item} (hva : given[j]? = some va) :
    W.param (encode ds) (mandatory ds).length told j va = some va := by
  obtain ⟨r, h1, h2⟩ := (C29_at_partial ds h.ok h.not58 j).1 (params ds)[j].1 (params ds)[j].2 (by rw [List.getElem?_eq_getElem hl])
  unfold World.param
  rw [h1]
  dsimp only
  by_cases hm : (j : Int) < (mandatory ds).length
  · rw [if_pos (Or.inl hm)]
  · obtain ⟨s1, s2⟩ := hs j (params ds)[j].2 va (params ds)[j].1 (by omega) (by rw [List.getElem?_eq_getElem hl]) hva
    have ha := h.ascii _ (List.getElem_mem hl)
    rcases hk : (params ds)[j].2 with _ | c | d | ⟨_ | t, m⟩
    · have hp : (params ds)[j]? = some ((params ds)[j].1, .plain) := by rw [List.getElem?_eq_getElem hl, ← hk]
      rw [sigAt_plain h hp (s2 hk)] at h1
      cases h1
      rw [if_pos (Or.inr (by simp))]
    · rw [hk] at h2 s1 ha
      rw [h2]
      obtain ⟨s3, s4⟩ := s1 c rfl
      rw [if_neg (by simp; omega), if_neg]
      simp only [s4, List.length_cons, List.length_nil]
      simp [toChar_ascii ha, s3]
      omega
    · rw [hk] at h2 s1
      rw [h2]
      obtain ⟨s3, s4⟩ := s1 _ rfl
      rw [if_neg (by simp; omega), if_neg]
      simp only [s4, List.length_cons, List.length_nil]
      simp [toChar_ascii (World.char_ascii hW d), s3]
      omega
    · rw [hk] at h2
      rw [h2]
      rw [if_pos (Or.inr (by simp))]
    · rw [hk] at h2 s1 ha
      rw [h2]
      obtain ⟨s3, s4⟩ := s1 t rfl
      rw [if_neg (by simp; omega), if_neg]
      simp only [s4, List.length_cons, List.length_nil]
      simp [toChar_ascii ha, s3]
      omega

/-- A parameter beyond the number of arguments the caller told. -/
theorem param_rest {W : World} {ds : List Decl} (h : Proper ds) {j : Nat} (hj : (mandatory ds).length ≤ j)
    {x k v} (hp : (params ds)[j]? = some (x, k)) (hv : k.missing = some v) {told : Nat} (h0 : told ≠ 0) (ht : told ≤ j) (va : Item) :
    W.param (encode ds) (mandatory ds).length told j va = some v := by
  obtain ⟨r, h1, h2⟩ := (C29_at_partial ds h.ok h.not58 j).1 x k hp
  have ha := h.ascii _ (List.mem_of_getElem? hp)
  unfold World.param
  rw [h1]
  dsimp only
  rcases k with _ | c | d | ⟨_ | t, m⟩
  · cases hv
  · cases hv
    rw [h2, if_neg (by simp; omega), if_pos (Or.inl ⟨h0, ht⟩)]
    simp [toChar_ascii ha, typeDefault_zero]
  · cases hv
    rw [h2, if_neg (by simp; omega), if_pos (Or.inl ⟨h0, ht⟩)]
    simp
  · cases hv
  · cases hv
    rw [h2, if_neg (by simp; omega), if_pos (Or.inl ⟨h0, ht⟩)]
    simp [toChar_ascii ha, typeDefault_zero]

theorem mapM_ok {f : Nat → Option Item} {l : List Item} (h : ∀ i, ∀ hi : i < l.length, f i = some l[i]) {n : Nat} (hn : n = l.length) :
    (List.range n).mapM f = some l := by subst hn; exact mapM_get h

/-- C72: C code that calls a compiled function and tells it, in place of `self`, the number of arguments it passes (1 to 9):
the function runs with these arguments and, for the others, their defaults or the zero values of their types. What the
registers and the stack hold after the arguments does not matter. -/
theorem C72_told_partial {W : World} (hW : W.Ascii) {ds : List Decl} (h : Proper ds) {given rest : List Item} (hn : (mandatory ds).length ≤ given.length) (hl : given.length ≤ (params ds).length)
    (hr : Rest ds given.length rest) (hs : W.Suits ds given) (h0 : 0 < given.length) (h9 : given.length < 10) {self : Item} (hself : (W.word self).toNat = given.length)
    {va : Nat → Item} (hva : ∀ i, ∀ hi : i < given.length, va i = given[i]) :
    ∃ c, closure (encode ds) = some c ∧ vmProto W (encode ds) c self va = some (.other PN_NIL, given ++ rest) := by
  refine ⟨_, closure_ok h, ?_⟩
  unfold vmProto
  dsimp only
  rw [if_pos (by omega), if_pos (by omega), hself, Int.toNat_natCast]
  have hlen := congrArg List.length hr
  simp only [List.length_map, List.length_drop] at hlen
  rw [mapM_ok (l := given ++ rest) (fun i hi => ?_) (by rw [List.length_append]; omega)]
  · rfl
  · rw [List.length_append] at hi
    by_cases hg : i < given.length
    · rw [param_given hW h hs hg (by omega) (Or.inr hg) (by rw [List.getElem?_eq_getElem hg, hva i hg]), hva i hg, List.getElem_append_left hg]
    · have hil : i < (params ds).length := by omega
      have hm := congrArg (fun l => l[i - given.length]?) hr
      simp only [List.getElem?_map, List.getElem?_drop] at hm
      rw [show given.length + (i - given.length) = i by omega, List.getElem?_eq_getElem hil, List.getElem?_eq_getElem (by omega)] at hm
      simp only [Option.map_some, Option.some.injEq] at hm
      rw [param_rest h (by omega) (x := (params ds)[i].1) (k := (params ds)[i].2) (by rw [List.getElem?_eq_getElem hil]) hm (by omega) (by omega), List.getElem_append_right (by omega)]

/-- C72: C code that passes all arguments: the function runs with this `self` and these arguments. Partial: the word of
`self` is not less than 10 (`C72_refuted_self`), and the arguments suit the parameters. -/
theorem C72_all_partial {W : World} (hW : W.Ascii) {ds : List Decl} (h : Proper ds) {given : List Item} (hl : given.length = (params ds).length)
    (hs : W.Suits ds given) {self : Item} (hself : 10 ≤ (W.word self).toNat) {va : Nat → Item} (hva : ∀ i, ∀ hi : i < given.length, va i = given[i]) :
    ∃ c, closure (encode ds) = some c ∧ vmProto W (encode ds) c self va = some (self, given) := by
  refine ⟨_, closure_ok h, ?_⟩
  unfold vmProto
  dsimp only
  rw [if_neg (by omega), if_neg (by omega), Int.toNat_natCast]
  rw [mapM_ok (l := given) (fun i hi => ?_) hl.symm]
  · rfl
  · rw [param_given hW h hs hi (by omega) (Or.inl rfl) (by rw [List.getElem?_eq_getElem hi, hva i hi]), hva i hi]

/-! Example: `(x=N|y=N): x + y.` (vm.c:147-152) called with 2, 3, 5 and with 1, 3. -/
def exAdd : List Decl := [.param [120] (.typed 78), .bar, .param [121] (.typed 78)]
theorem exAddProper : Proper exAdd := by
  refine ⟨?_, ?_, ?_, by simp [exAdd]⟩ <;> simp [exAdd, Decl.Ok, Decl.Not58, params, Kind.Ascii, Letter]
def exWorld : World := ⟨0x10000#64, 0x20000#64, fun _ => 0x18000#64, fun _ => 111⟩
example : exWorld.Ascii ∧ exWorld.Suits exAdd [.num 3, .num 5] ∧ (mandatory exAdd).length ≤ 1 ∧ Rest exAdd 1 [.num 0] := by
  refine ⟨fun w => by simp [exWorld], ?_, by decide, rfl⟩
  intro j k v x h1 h2 h3
  have hj : j = 1 := by
    have := (List.getElem?_eq_some_iff.1 h3).1
    simp only [List.length_cons, List.length_nil] at this
    simp [exAdd, mandatory] at h1
    omega
  subst hj
  cases h2; cases h3
  refine ⟨fun t ht => by cases ht; decide, fun h => by cases h⟩
example : (closure (encode exAdd)).bind (fun c => vmProto exWorld (encode exAdd) c (.other 2#64) (fun j => if j = 0 then .num 3 else .num 5)) = some (.other PN_NIL, [.num 3, .num 5]) ∧
    (closure (encode exAdd)).bind (fun c => vmProto exWorld (encode exAdd) c (.other 1#64) (fun j => if j = 0 then .num 3 else .str [120])) = some (.other PN_NIL, [.num 3, .num 0]) := by
  decide +kernel

/-- C72 fails for methods of nil, false, true and the integers 0 to 4: called from C, they run with nil as `self`. -/
theorem C72_refuted_self {W : World} {self : Item} (h : self = .other PN_NIL ∨ self = .other PN_FALSE ∨ self = .other PN_TRUE ∨ ∃ i, 0 ≤ i ∧ i < 5 ∧ self = .num i)
    (sig : List Item) (c : Callee) (va : Nat → Item) (r : Item × List Item) (hr : vmProto W sig c self va = some r) : r.1 = .other PN_NIL := by
  have h1 : (W.word self).toNat < 10 := by
    rcases h with rfl | rfl | rfl | ⟨i, h0, h5, rfl⟩
    · show PN_NIL.toNat < 10; decide
    · show PN_FALSE.toNat < 10; decide
    · show PN_TRUE.toNat < 10; decide
    · unfold World.word
      dsimp only
      have : i = 0 ∨ i = 1 ∨ i = 2 ∨ i = 3 ∨ i = 4 := by omega
      rcases this with rfl | rfl | rfl | rfl | rfl <;> decide
  unfold vmProto at hr
  dsimp only at hr
  rw [if_pos h1] at hr
  obtain ⟨l, _, rfl⟩ := Option.map_eq_some_iff.1 hr
  simp

/-- C72 fails for negative integers: passed for an optional parameter, they are taken for foreign pointers (addresses are
below 2^63) and replaced by the default. For every function `(x | y=N)`, every `x` and every negative `i`. -/
theorem C72_refuted_negative {W : World} (hhi : W.birthHi.toNat < 2^63) (x y : List (BitVec 8)) (v : Item) {i : Int} (h0 : i < 0) (h1 : -(2^62) ≤ i) {self : Item}
    (hself : 10 ≤ (W.word self).toNat) : ∃ c, closure (encode [.param x .plain, .bar, .param y (.typed 78)]) = some c ∧
      vmProto W (encode [.param x .plain, .bar, .param y (.typed 78)]) c self (fun j => if j = 0 then v else .num i) = some (self, [v, .num 0]) := by
  have hp : Proper [.param x .plain, .bar, .param y (.typed 78)] := by
    refine ⟨?_, ?_, ?_, by simp⟩ <;> simp [Decl.Ok, Decl.Not58, params, Kind.Ascii, Letter]
  refine ⟨_, closure_ok hp, ?_⟩
  have hw : (W.word (.num i)).toNat = (2 * i + 1 + 2^64).toNat := by
    unfold World.word pnNum
    dsimp only
    rw [BitVec.toNat_add, BitVec.toNat_shiftLeft, BitVec.toNat_ofInt]
    simp only [Nat.shiftLeft_eq]
    simp only [BitVec.reduceToNat]
    omega
  have hf : W.ffi (.num i) = true := by
    unfold World.ffi
    dsimp only
    have hodd : isInt (W.word (.num i)) = true := by
      unfold isInt
      have : ¬ (W.word (.num i) &&& 1#64) = 0#64 := by
        intro e
        have e' := congrArg BitVec.toNat e
        rw [BitVec.toNat_and, hw] at e'
        simp only [BitVec.reduceToNat, Nat.and_one_is_mod] at e'
        omega
      simpa using this
    have hnp : isPtr (W.word (.num i)) = false := by unfold isPtr; rw [hodd]; rfl
    rw [hnp]
    simp only [Bool.false_and, Bool.not_false, Bool.true_and, Bool.false_or, decide_eq_true_eq]
    rw [BitVec.lt_def, hw]
    omega
  unfold vmProto
  dsimp only
  rw [if_neg (by omega), if_neg (by omega), Int.toNat_natCast]
  rw [mapM_ok (l := [v, .num 0]) (fun j hj => ?_) (show (params [.param x .plain, .bar, .param y (.typed 78)]).length = _ from rfl)]
  · rfl
  · simp only [List.length_cons, List.length_nil] at hj
    obtain rfl | rfl : j = 0 ∨ j = 1 := by omega
    · rfl
    · unfold World.param
      have e : sigAt (encode [.param x .plain, .bar, .param y (.typed 78)]) 1 = some (some [.str y, .num 78]) := by
        simp [encode, Decl.items, sigAt, atLoop, count, Item.isStr, Item.isNum]
      rw [show ((1 : Nat) : Int) = 1 from rfl, e]
      simp [mandatory, hf, typeDefault, toChar]

/-- C72 fails when the caller passes fewer arguments and does not say so: the block `(x, y): …` run by a method that passes one
argument gets as `y` what the register or the stack holds, whatever it is. -/
theorem C72_refuted_untold {W : World} (x y : List (BitVec 8)) (v junk : Item) {self : Item} (hself : 10 ≤ (W.word self).toNat) :
    ∃ c, closure (encode [.param x .plain, .param y .plain]) = some c ∧
      vmProto W (encode [.param x .plain, .param y .plain]) c self (fun j => if j = 0 then v else junk) = some (self, [v, junk]) := by
  have hp : Proper [.param x .plain, .param y .plain] := by
    refine ⟨?_, ?_, ?_, by simp⟩ <;> simp [Decl.Ok, Decl.Not58, params, Kind.Ascii]
  refine ⟨_, closure_ok hp, ?_⟩
  unfold vmProto
  dsimp only
  rw [if_neg (by omega), if_neg (by omega), Int.toNat_natCast]
  rw [mapM_ok (l := [v, junk]) (fun j hj => ?_) (show (params [.param x .plain, .param y .plain]).length = _ from rfl)]
  · rfl
  · simp only [List.length_cons, List.length_nil] at hj
    obtain rfl | rfl : j = 0 ∨ j = 1 := by omega
    · rfl
    · unfold World.param
      have e : sigAt (encode [.param x .plain, .param y .plain]) 1 = some (some [.str y]) := by
        simp [encode, Decl.items, sigAt, atLoop, count, Item.isStr]
      rw [show ((1 : Nat) : Int) = 1 from rfl, e]
      simp

end Potion.Call
