import Verif.Spec.Sig
/-!
C29: arity, number of mandatory arguments, and parameter lookup.
-/
namespace Potion.Sig

theorem count_deflt (v : Item) (hv : v ≠ .num 58) (rest : List Item) (c c' : Int) (h : count (.num 58) (some v) c = some c') :
    count v rest.head? c' = some c := by
  simp only [count, Item.isStr] at h
  unfold count
  rw [if_neg hv]
  cases v <;> simp_all [Item.isStr] <;> omega

theorem count_num {i : Int} (hi : i ≠ 58) (n : Option Item) (c : Int) : count (.num i) n c = some c := by
  simp [count, Item.isStr, hi]
theorem count_str (s) (n : Option Item) (c : Int) : count (.str s) n c = some (c + 1) := by
  simp [count, Item.isStr]
theorem count_other (w) (n : Option Item) (c : Int) : count (.other w) n c = some c := by
  simp [count, Item.isStr]
theorem count_colon (v : Item) (c : Int) : ∃ c', count (.num 58) (some v) c = some c' ∧ c' ≤ c := by
  cases v
  · exact ⟨c - 1, by simp [count, Item.isStr], by omega⟩
  · exact ⟨c, by simp [count, Item.isStr], by omega⟩
  · exact ⟨c, by simp [count, Item.isStr], by omega⟩

theorem arityLoop_decls : ∀ (ds : List Decl) (c : Int), (∀ d ∈ ds, d.Ok) → (∀ d ∈ ds, d.Not58) →
    arityLoop (encode ds) c = some (c + (params ds).length)
  | [], c, _, _ => by simp [encode, arityLoop, params]
  | d :: ds, c, ok, n58 => by
    have ih := fun c => arityLoop_decls ds c (fun d h => ok d (by simp [h])) (fun d h => n58 d (by simp [h]))
    have okd := ok d (by simp)
    have nd := n58 d (by simp)
    simp only [encode, List.flatMap_cons] at ih ⊢
    cases d with
    | bar => simp [Decl.items, arityLoop, count_num, params, ih]
    | dot => simp [Decl.items, arityLoop, count_num, params, ih]
    | param n k =>
      cases k with
      | plain => simp [Decl.items, arityLoop, count_str, params, ih]; omega
      | typed t => simp [Decl.items, arityLoop, count_str, count_num okd.1, params, ih]; omega
      | modified t m =>
        cases t with
        | none => simp [Decl.items, arityLoop, count_str, count_num okd.2.1, count_other, params, ih]; omega
        | some t => simp [Decl.items, arityLoop, count_str, count_num okd.2.1, count_num (okd.1 t rfl).1, params, ih]; omega
      | deflt v =>
        simp only [Decl.items, List.cons_append, List.nil_append, arityLoop, count_str, List.head?_cons]
        obtain ⟨c', h1, _⟩ := count_colon v (c + 1)
        simp only [h1, count_deflt v nd _ _ _ h1, params, ih, List.length_cons]
        simp; omega

/-- C29: the arity of a function is the number of its declared parameters. Partial: if no default value is the number 58
(`C29_refuted`). -/
theorem C29_arity_partial (ds : List Decl) (ok : ∀ d ∈ ds, d.Ok) (h : ∀ d ∈ ds, d.Not58) :
    arity (encode ds) = some ((params ds).length : Int) := by
  unfold arity
  rw [arityLoop_decls ds 0 ok h]
  simp

theorem minLoop_decls : ∀ (ds : List Decl) (c : Int), (∀ d ∈ ds, d.Ok) → minLoop (encode ds) c = c + (mandatory ds).length
  | [], c, _ => by simp [encode, minLoop, mandatory]
  | d :: ds, c, ok => by
    have ih := fun c => minLoop_decls ds c (fun d h => ok d (by simp [h]))
    have okd := ok d (by simp)
    simp only [encode, List.flatMap_cons] at ih ⊢
    cases d with
    | bar => simp [Decl.items, minLoop, mandatory, Item.isStr]
    | dot => simp [Decl.items, minLoop, mandatory, Item.isStr, ih]
    | param n k =>
      cases k with
      | plain => simp [Decl.items, minLoop, mandatory, Item.isStr, ih]; omega
      | typed t => simp [Decl.items, minLoop, mandatory, Item.isStr, ih, okd.1, okd.2]; omega
      | modified t m =>
        cases t with
        | none => simp [Decl.items, minLoop, mandatory, Item.isStr, ih, okd.2.1, okd.2.2]; omega
        | some t => simp [Decl.items, minLoop, mandatory, Item.isStr, ih, okd.2.1, okd.2.2, (okd.1 t rfl).1, (okd.1 t rfl).2]; omega
      | deflt v => simp [Decl.items, minLoop, mandatory, Item.isStr]

/-- C29: the minimum number of arguments is the number of mandatory parameters. -/
theorem C29_minargs (ds : List Decl) (ok : ∀ d ∈ ds, d.Ok) : minargs (encode ds) = (mandatory ds).length := by
  unfold minargs
  rw [minLoop_decls ds 0 ok]
  simp

/-- What lookup of a parameter by position may answer: its name, followed by its type or its default value; for a
parameter with neither also a separator may follow. -/
def Shows : Kind → List (BitVec 8) → List Item → Prop
  | .plain, n, r => r = [.str n] ∨ r = [.str n, .num 124] ∨ r = [.str n, .num 46]
  | .typed c, n, r => r = [.str n, .num c]
  | .deflt v, n, r => r = [.str n, .num 58, v]
  | .modified none _, n, r => r = [.str n]
  | .modified (some t) _, n, r => r = [.str n, .num t]

theorem encode_head (ds : List Decl) : encode ds = [] ∨ (∃ n r, encode ds = .str n :: r) ∨ (∃ r, encode ds = .num 124 :: r) ∨
    ∃ r, encode ds = .num 46 :: r := by
  rcases ds with _ | ⟨d, ds⟩
  · simp [encode]
  · rcases d with ⟨n, _ | c | v | ⟨_ | t, m⟩⟩ | _ | _ <;> simp [encode, Decl.items]

theorem atLoop_decls : ∀ (ds : List Decl) (c index : Int), (∀ d ∈ ds, d.Ok) → (∀ d ∈ ds, d.Not58) → c < index →
    (∀ (n : List (BitVec 8)) (k : Kind), (params ds)[(index - c - 1).toNat]? = some (n, k) →
      ∃ r, atLoop index (encode ds) c = some (some r) ∧ Shows k n r) ∧
    ((params ds).length ≤ index - c - 1 → atLoop index (encode ds) c = some none)
  | [], c, index, _, _, _ => by simp [encode, atLoop, params]
  | d :: ds, c, index, ok, n58, hc => by
    have ih := fun c hc => atLoop_decls ds c index (fun d h => ok d (by simp [h])) (fun d h => n58 d (by simp [h])) hc
    have okd := ok d (by simp)
    have nd := n58 d (by simp)
    simp only [encode, List.flatMap_cons] at ih ⊢
    have hne : ¬ c = index := by omega
    cases d with
    | bar => simpa [Decl.items, atLoop, count_num, params, hne] using ih c hc
    | dot => simpa [Decl.items, atLoop, count_num, params, hne] using ih c hc
    | param n k =>
      by_cases hi : c + 1 = index
      · have hz : (index - c - 1).toNat = 0 := by omega
        refine ⟨fun n' k' hk => ?_, fun hl => ?_⟩
        · rw [hz] at hk
          obtain ⟨rfl, rfl⟩ : n = n' ∧ k = k' := by simpa [params] using hk
          cases k with
          | plain =>
            have := encode_head ds
            simp only [encode] at this
            simp only [Decl.items, List.cons_append, List.nil_append, atLoop, count_str, hi, if_true, Option.some.injEq]
            refine ⟨_, rfl, ?_⟩
            rcases this with h | ⟨n', r, h⟩ | ⟨r, h⟩ | ⟨r, h⟩ <;> rw [h]
            · simp [Shows]
            · simp [Shows, Item.isNum]
            · cases r <;> simp [Shows, Item.isNum]
            · cases r <;> simp [Shows, Item.isNum]
          | typed t =>
            have h1 := okd.1
            refine ⟨[.str n, .num t], ?_, rfl⟩
            simp only [Decl.items, List.cons_append, List.nil_append, atLoop, count_str, hi, if_true, Option.some.injEq]
            generalize List.flatMap Decl.items ds = l
            cases l <;> simp [Item.isNum, h1]
          | deflt v =>
            exact ⟨[.str n, .num 58, v], by simp [Decl.items, atLoop, count_str, hi, Item.isNum], rfl⟩
          | modified t m =>
            cases t with
            | none => exact ⟨[.str n], by simp [Decl.items, atLoop, count_str, hi, Item.isNum], rfl⟩
            | some t =>
              have h1 := (okd.1 t rfl).1
              exact ⟨[.str n, .num t], by simp [Decl.items, atLoop, count_str, hi, Item.isNum, h1], rfl⟩
        · simp only [params, List.length_cons] at hl
          omega
      · have hlt : c + 1 < index := by omega
        obtain ⟨ih1, ih2⟩ := ih (c + 1) hlt
        have hs : (index - c - 1).toNat = (index - (c + 1) - 1).toNat + 1 := by omega
        have hstep : atLoop index (Decl.items (.param n k) ++ List.flatMap Decl.items ds) c = atLoop index (List.flatMap Decl.items ds) (c + 1) := by
          cases k with
          | plain => simp [Decl.items, atLoop, count_str, hi]
          | typed t => simp [Decl.items, atLoop, count_str, hi, count_num okd.1]
          | modified t m =>
            cases t with
            | none => simp [Decl.items, atLoop, count_str, hi, count_num okd.2.1, count_other]
            | some t => simp [Decl.items, atLoop, count_str, hi, count_num okd.2.1, count_num (okd.1 t rfl).1]
          | deflt v =>
            obtain ⟨c', h1, h2⟩ := count_colon v (c + 1)
            have : ¬ c' = index := by omega
            simp only [Decl.items, List.cons_append, List.nil_append, atLoop, count_str, hi, if_false, List.head?_cons, h1, this,
              count_deflt v nd _ _ _ h1]
        rw [hstep]
        refine ⟨fun n' k' hk => ih1 n' k' ?_, fun hl => ih2 ?_⟩
        · rw [hs] at hk
          simpa [params] using hk
        · simp only [params, List.length_cons] at hl
          omega

/-- C29: lookup by position finds the declared parameter, with its type or default, and nothing beyond the last one.
Partial: if no default value is the number 58. -/
theorem C29_at_partial (ds : List Decl) (ok : ∀ d ∈ ds, d.Ok) (h : ∀ d ∈ ds, d.Not58) (j : Nat) :
    (∀ n k, (params ds)[j]? = some (n, k) → ∃ r, sigAt (encode ds) j = some (some r) ∧ Shows k n r) ∧
    ((params ds).length ≤ j → sigAt (encode ds) j = some none) := by
  have := atLoop_decls ds (-1) j ok h (by omega)
  rw [show ((j : Int) - -1 - 1) = j by omega] at this
  refine ⟨fun n k hk => this.1 n k (by simpa using hk), fun hl => this.2 (by omega)⟩

theorem nameLoop_at (index : Int) : ∀ (l : List Item) (c : Int), nameLoop index l c = (atLoop index l c).map (·.bind List.head?)
  | [], c => rfl
  | v :: rest, c => by
    unfold nameLoop atLoop
    split
    · rfl
    · split
      · simp only [Option.map_some, Option.bind_some]
        rcases rest with _ | ⟨t, _ | ⟨d, rest⟩⟩
        · rfl
        · cases h : t.isNum <;> simp [h]
        · cases h : t.isNum <;> simp [h]
          by_cases hc : t = .num 58 <;> simp [hc]
      · exact nameLoop_at index rest _

/-- C29: the name at a position is the declared one, and nil beyond the last one. Partial as above. -/
theorem C29_name_partial (ds : List Decl) (ok : ∀ d ∈ ds, d.Ok) (h : ∀ d ∈ ds, d.Not58) (j : Nat) :
    nameAt (encode ds) j = some ((params ds)[j]?.map fun p => Item.str p.1) := by
  have h1 := C29_at_partial ds ok h j
  unfold sigAt at h1
  unfold nameAt
  rw [nameLoop_at]
  rcases hp : (params ds)[j]? with _ | ⟨n, k⟩
  · rw [h1.2 (by simpa using hp)]
    rfl
  · obtain ⟨r, h2, h3⟩ := h1.1 n k hp
    rw [h2]
    cases k with
    | plain => rcases h3 with rfl | rfl | rfl <;> rfl
    | typed t => rw [h3]; rfl
    | deflt v => rw [h3]; rfl
    | modified t m => cases t <;> rw [h3] <;> rfl

/-- No parameter has a string as default value. -/
def NoStr : Decl → Prop
  | .param _ (.deflt v) => v.isStr = false
  | _ => True

theorem findLoop_decls (x : List (BitVec 8)) : ∀ (ds : List Decl) (c : Int), (∀ d ∈ ds, NoStr d) →
    findLoop (.str x) (encode ds) c = if x ∈ (params ds).map (·.1) then c + ((params ds).map (·.1)).idxOf x else -1
  | [], c, _ => by simp [encode, findLoop, params]
  | d :: ds, c, ns => by
    have ih := fun c => findLoop_decls x ds c (fun d h => ns d (by simp [h]))
    have nd := ns d (by simp)
    simp only [encode, List.flatMap_cons] at ih ⊢
    have key : ∀ (n : List (BitVec 8)) (k : Kind), (n = x → findLoop (.str x) (Decl.items (.param n k) ++ List.flatMap Decl.items ds) c = c) ∧
        (NoStr (.param n k) → n ≠ x → findLoop (.str x) (Decl.items (.param n k) ++ List.flatMap Decl.items ds) c =
          findLoop (.str x) (List.flatMap Decl.items ds) (c + 1)) := by
      intro n k
      constructor
      · rintro rfl
        rcases k with _ | c | v | ⟨_ | t, m⟩ <;> simp [Decl.items, findLoop]
      · intro hn hne
        rcases k with _ | c | v | ⟨_ | t, m⟩
        · simp [Decl.items, findLoop, hne, Item.isStr]
        · simp [Decl.items, findLoop, hne, Item.isStr]
        · cases v with
          | str s => simp [NoStr, Item.isStr] at hn
          | num i => simp [Decl.items, findLoop, hne, Item.isStr]
          | other w => simp [Decl.items, findLoop, hne, Item.isStr]
        · simp [Decl.items, findLoop, hne, Item.isStr]
        · simp [Decl.items, findLoop, hne, Item.isStr]
    cases d with
    | bar =>
      have : findLoop (.str x) (Decl.items .bar ++ List.flatMap Decl.items ds) c = findLoop (.str x) (List.flatMap Decl.items ds) c := by
        simp [Decl.items, findLoop, Item.isStr]
      rw [this, ih]; rfl
    | dot =>
      have : findLoop (.str x) (Decl.items .dot ++ List.flatMap Decl.items ds) c = findLoop (.str x) (List.flatMap Decl.items ds) c := by
        simp [Decl.items, findLoop, Item.isStr]
      rw [this, ih]; rfl
    | param n k =>
      by_cases hn : n = x
      · rw [(key n k).1 hn]
        simp [params, hn]
      · rw [(key n k).2 nd hn, ih]
        have hx : ¬ x = n := fun e => hn e.symm
        simp only [params, List.map_cons, List.mem_cons, hx, false_or]
        split
        · rw [List.idxOf_cons, beq_false_of_ne hn]
          simp only [cond_false, Int.natCast_add]
          omega
        · rfl

/-- C29: lookup by name finds the position of the (first) parameter of that name, and -1 if there is none. Partial: if no
default value is a string (`C29_refuted_find`). -/
theorem C29_find_partial (ds : List Decl) (h : ∀ d ∈ ds, NoStr d) (x : List (BitVec 8)) :
    find (encode ds) (.str x) = if x ∈ (params ds).map (·.1) then (((params ds).map (·.1)).idxOf x : Int) else -1 := by
  unfold find
  rw [findLoop_decls x ds 0 h]
  simp

/-- `(a, b=N | c:=1, *d)` meets the hypotheses. -/
def exSig : List Decl := [.param [97] .plain, .param [98] (.typed 78), .bar, .param [99] (.deflt (.num 1)), .param [100] (.modified none 42)]
example : (∀ d ∈ exSig, d.Ok) ∧ (∀ d ∈ exSig, d.Not58) ∧ (∀ d ∈ exSig, NoStr d) ∧
    arity (encode exSig) = some 4 ∧ minargs (encode exSig) = 2 ∧ sigAt (encode exSig) 2 = some (some [.str [99], .num 58, .num 1]) ∧
    find (encode exSig) (.str [100]) = 3 := by
  simp [exSig, Decl.Ok, Decl.Not58, NoStr, Item.isStr, Letter]
  decide

/-- C29 fails as stated: `(x:=58, y)` has arity 1, and `y` is not found at its position: the default value is taken for the
`:` before a default. With the parameters the other way round, `(y, x:=58)`, the tuple is read past its end. -/
theorem C29_refuted : let ds : List Decl := [.param [120] (.deflt (.num 58)), .param [121] .plain]
    (params ds).length = 2 ∧ arity (encode ds) = some 1 ∧ nameAt (encode ds) 1 = some none ∧
    arity (encode [.param [121] .plain, .param [120] (.deflt (.num 58))]) = none := by
  decide

/-- Also `(a:="s", b)`: `b` is reported at position 2. -/
theorem C29_refuted_find : let ds : List Decl := [.param [97] (.deflt (.str [115])), .param [98] .plain]
    ((params ds).map (·.1)).idxOf [98] = 1 ∧ find (encode ds) (.str [98]) = 2 := by
  decide

end Potion.Sig
