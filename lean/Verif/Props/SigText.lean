import Verif.Proof.SigText5
import Verif.Props.Signatures
/-!
# C68: the texts of signatures

`potionSig fuel (some text) ..` is `potion_sig`: the parser greg generates from core/syntax.y, started at its rule `sig`, and the actions, which build the tuple.
`IsSig text ds` (Spec/SigText.lean) says which parameters a text declares; `encode ds` are the elements the queries of C29 work on.
-/
namespace Potion.Greg
open Potion.Peg (Tree Kind)
open Potion.Spec (chars Blank Gap Reads node1)
open Potion.Sig

section
variable (buf : Nat → Byte) (thunks : Nat → Thunk) (text : List Byte) (vals : Env) (yy : Tree)

/-- The body of `sig`. -/
def sigBody : Exp := sequ [.plus (.name R.args none), .name R.end_of_file none]

theorem sig_parse {s : List Byte} (hs : s.length < YY_BUFFER_START_SIZE) : ∃ f0 ok g' d',
    (∀ f, f0 ≤ f → parse potionGrammar R.sig (fun _ _ => true) sigAct f s (init buf thunks text) vals (yy, { pbuf := [], source := .tup [], failed := false }) = some (ok, g', d')) ∧
    ((ok = true ∧ ∃ evs m' env env', Eval potionGrammar (fun _ _ => true) s R.sig sigBody 0 ⟨0, 0, []⟩ (.ok g'.pos evs m') ∧
      Runs sigAct s evs ([env], yy, { pbuf := [], source := .tup [], failed := false }) ([env'], d'.yy)) ∨
     (ok = false ∧ ∃ m', Eval potionGrammar (fun _ _ => true) s R.sig sigBody 0 ⟨0, 0, []⟩ (.fail m'))) := by
  obtain ⟨f0, ⟨ok, g', d'⟩, hf⟩ := C65_potion (P := fun _ _ => true) (inp := s) buf thunks text (fun r ru h a ha => sig_local r ru h a ha) hs R.sig (by decide +kernel) vals
    (yy, { pbuf := [], source := .tup [], failed := false })
  refine ⟨f0, ok, g', d', hf, ?_⟩
  rcases C64_actions buf thunks text potion_made (r := R.sig) rfl (fun r ru h => chkAll_uses potion_chk r ru h fun a ha => sig_local r ru h a ha) hs (hf _ (Nat.le_refl _)) with
    ⟨rfl, evs, m', h1, -, h2⟩ | ⟨rfl, ⟨m', h1, -⟩, -⟩
  · refine .inl ⟨rfl, evs, m', ?_⟩
    rw [List.cons_append] at h2
    cases h2 with
    | @enter _ _ env _ _ _ h2 =>
      obtain ⟨s1, h3, h4⟩ := sruns_app h2
      cases h4 with
      | @leave _ _ env' _ _ _ h4 => cases h4; exact ⟨env, env', h1, h3⟩
  · exact .inr ⟨rfl, m', h1⟩

theorem potionSig_cons (f c l) : potionSig f (some (c :: l)) buf thunks text vals yy =
    match parse potionGrammar R.sig (fun _ _ => true) sigAct f (c :: l) (init buf thunks text) vals (yy, { pbuf := [], source := .tup [], failed := false }) with
    | none => none
    | some (true, _, d) => if d.yy.2.failed then some none else some (some d.yy.2.source)
    | some (false, _, _) => some none := rfl

theorem sig_run {s : List Byte} (hne : s ≠ []) (hs : s.length < YY_BUFFER_START_SIZE) {l} (h : Does (fun _ _ => true) s sigBody s [] (Ka l)) :
    ∃ f0 a, a.map itemOf = l ∧ ∀ f, f0 ≤ f → potionSig f (some s) buf thunks text vals yy = some (some (.tup a)) := by
  obtain ⟨f0, ok, g', d', hf, hr⟩ := sig_parse buf thunks text vals yy hs
  obtain ⟨p, evs, m', h1, h2, h3, h4⟩ := h R.sig 0 ⟨0, 0, []⟩ (Nat.zero_le _) rfl
  rcases hr with ⟨rfl, evs', m'', env, env', h5, h6⟩ | ⟨rfl, m'', h5⟩
  · cases Eval.det h3 _ h5
    obtain ⟨_, y', e, rfl, e1, e2⟩ := h4 _ _ _ _ h6
    cases e
    obtain ⟨a, e3, e4⟩ := e1 [] rfl
    refine ⟨f0, a, e4, fun f hf' => ?_⟩
    obtain ⟨c, r, rfl⟩ := List.exists_cons_of_ne_nil hne
    rw [potionSig_cons, hf f hf']
    simp only [e2, e3, Bool.false_eq_true, if_false, List.nil_append]
  · cases Eval.det h3 _ h5

/-- Every signature is parsed into the tuple of its declarations. -/
theorem C68_signature {s ds} (h : IsSig s ds) (hs : s.length < YY_BUFFER_START_SIZE) :
    ∃ f0 a, a.map itemOf = encode ds ∧ ∀ f, f0 ≤ f → potionSig f (some s) buf thunks text vals yy = some (some (.tup a)) := by
  refine sig_run buf thunks text vals yy ?_ hs (sig_d h)
  have key : ∀ {s ds}, IsArgs s ds → ∀ t, s ++ t ≠ [] := by
    intro s ds h t e
    obtain ⟨c, r, rfl, -⟩ := IsArgs.starts h
    cases e
  cases h with
  | args h => exact key h _
  | rest h => exact key h _

/-- Without a text the signature is `nil`, with the empty text `false`. -/
theorem C68_none (f) : potionSig f none buf thunks text vals yy = some (some (.imm PN_NIL)) ∧ potionSig f (some []) buf thunks text vals yy = some (some (.imm PN_FALSE)) := ⟨rfl, rfl⟩

/-- A text that begins with a blank, a digit, a bracket, .. is a syntax error, which ends the process. -/
theorem C68_rejects {c : Byte} {s} (hc : Spec.isLetter c = false) (hu : c.toNat < 128) (hm : c ∉ modifiers) (hb : c ≠ 0x7C#8) (hd : c ≠ 0x2E#8) (hs : (c :: s).length < YY_BUFFER_START_SIZE) :
    ∃ f0, ∀ f, f0 ≤ f → potionSig f (some (c :: s)) buf thunks text vals yy = some none := by
  obtain ⟨f0, ok, g', d', hf, hr⟩ := sig_parse buf thunks text vals yy hs
  have key : ∀ c : Byte, Spec.isLetter c = false → c.toNat < 128 → Peg.mayStart Peg.nulls Peg.firsts c Peg.utff = false := by decide +kernel
  obtain ⟨m', h⟩ := sig_miss (P := fun _ _ => true) (inp := c :: s) (Peg.Head.cons ⟨key c hc hu, hm, hb, hd⟩) R.sig 0 ⟨0, 0, []⟩ (Nat.zero_le _) rfl
  rcases hr with ⟨rfl, evs', m'', env, env', h5, h6⟩ | ⟨rfl, m'', h5⟩
  · cases Eval.det h _ h5
  · exact ⟨f0, fun f hf' => by rw [potionSig_cons, hf f hf']⟩

end

/-! ### The queries -/

theorem letters_ok : (∀ c : Byte, c ∈ typeLetters → Letter c.toNat) ∧ ∀ c : Byte, c ∈ modifiers → Letter c.toNat := by
  constructor
  · have : ∀ c : Byte, c ∈ typeLetters → (c.toNat ≠ 58 ∧ c.toNat ≠ 124) := by decide +kernel
    intro c h; have := this c h; exact ⟨by omega, by omega⟩
  · have : ∀ c : Byte, c ∈ modifiers → (c.toNat ≠ 58 ∧ c.toNat ≠ 124) := by decide +kernel
    intro c h; have := this c h; exact ⟨by omega, by omega⟩

theorem item_imm (v : BitVec 64) : (itemOf (.imm v)).isStr = false := by
  rw [itemOf]; split <;> rfl

/-- A property of the declarations of parameters, bars and dots. -/
theorem sig_all {Q : Decl → Prop} (hp : ∀ s d, IsParam s d → Q d) (hb : Q .bar) (hd : Q .dot) {s ds} (h : IsSig s ds) : ∀ d ∈ ds, Q d := by
  have h1 : ∀ {s ds}, IsSet s ds → ∀ d ∈ ds, Q d := by
    intro s ds h
    induction h with
    | one h => intro d hm; rw [List.mem_singleton] at hm; rw [hm]; exact hp _ _ h
    | more h _ _ _ ih => intro d hm; rcases List.mem_cons.1 hm with rfl | hm; exacts [hp _ _ h, ih d hm]
  have h2 : ∀ {s ds}, IsList s ds → ∀ d ∈ ds, Q d := by
    intro s ds h
    cases h with
    | set h => exact h1 h
    | both h _ _ h' =>
      intro d hm
      rcases List.mem_append.1 hm with hm | hm
      · exact h1 h d hm
      · rcases List.mem_cons.1 hm with rfl | hm; exacts [hb, h1 h' d hm]
    | optional _ h => intro d hm; rcases List.mem_cons.1 hm with rfl | hm; exacts [hb, h1 h d hm]
  have h3 : ∀ {s ds}, IsArgs s ds → ∀ d ∈ ds, Q d := by
    intro s ds h
    induction h with
    | list h => exact h2 h
    | dot h _ _ _ ih =>
      intro d hm
      rcases List.mem_append.1 hm with hm | hm
      · exact h2 h d hm
      · rcases List.mem_cons.1 hm with rfl | hm; exacts [hd, ih d hm]
  cases h with
  | args h => exact h3 h
  | rest h =>
    intro d hm
    rcases List.mem_append.1 hm with hm | hm
    · exact h3 h d hm
    · rw [List.mem_singleton] at hm; rw [hm]; exact hd

theorem sig_ok {s ds} (h : IsSig s ds) : ∀ d ∈ ds, d.Ok := by
  refine sig_all (Q := Decl.Ok) ?_ trivial trivial h
  intro s d h
  cases h with
  | plain => trivial
  | typed _ _ _ hc => exact letters_ok.1 _ hc
  | deflt => trivial
  | modified hm => exact ⟨nofun, letters_ok.2 _ hm⟩
  | modifiedTyped hm _ _ _ hc => exact ⟨fun c e => by cases e; exact letters_ok.1 _ hc, letters_ok.2 _ hm⟩
  | rest => trivial

theorem sig_noStr {s ds} (h : IsSig s ds) : ∀ d ∈ ds, NoStr d := by
  refine sig_all (Q := NoStr) ?_ trivial trivial h
  intro s d h
  cases h with
  | deflt => exact item_imm _
  | _ => trivial

section
variable (buf : Nat → Byte) (thunks : Nat → Thunk) (text : List Byte) (vals : Env) (yy : Tree)

/-- Text to answers: of the tuple a signature is parsed into, the arity is the number of parameters it declares, the number of mandatory arguments that of the
parameters before the first bar or default, and the parameters are found at their positions and by their names. Partial: no default value is 58 (`C29_refuted`). -/
theorem C68_queries_partial {s ds} (h : IsSig s ds) (h58 : ∀ d ∈ ds, d.Not58) (hs : s.length < YY_BUFFER_START_SIZE) :
    ∃ f0 a, (∀ f, f0 ≤ f → potionSig f (some s) buf thunks text vals yy = some (some (.tup a))) ∧
      Sig.arity (a.map itemOf) = some ((params ds).length : Int) ∧ minargs (a.map itemOf) = (mandatory ds).length ∧
      (∀ j : Nat, nameAt (a.map itemOf) j = some ((params ds)[j]?.map fun p => Item.str p.1)) ∧
      ∀ x, find (a.map itemOf) (.str x) = if x ∈ (params ds).map (·.1) then (((params ds).map (·.1)).idxOf x : Int) else -1 := by
  obtain ⟨f0, a, e, hf⟩ := C68_signature buf thunks text vals yy h hs
  refine ⟨f0, a, hf, ?_⟩
  rw [e]
  exact ⟨C29_arity_partial ds (sig_ok h) h58, C29_minargs ds (sig_ok h), fun j => C29_name_partial ds (sig_ok h) h58 j, fun x => C29_find_partial ds (sig_noStr h) x⟩

/-! ### Limits -/

/-- A type is one letter: what follows it is the next parameter, so that `x=Num` declares `x` of type `N` and a parameter `um`. -/
theorem C68_refuted_type {x s : List Byte} {c : Byte} {ds} (hx : ParamName x) (hc : c ∈ typeLetters) (h : IsSig s ds) (hl : Peg.Head (fun c => Spec.isLetter c = true) s)
    (hs : (x ++ (chars "=" ++ (c :: s))).length < YY_BUFFER_START_SIZE) :
    ∃ f0 a, a.map itemOf = encode (.param x (.typed c.toNat) :: ds) ∧ ∀ f, f0 ≤ f → potionSig f (some (x ++ (chars "=" ++ (c :: s)))) buf thunks text vals yy = some (some (.tup a)) := by
  refine sig_run buf thunks text vals yy ?_ hs (typed_sig_d hx hc h hl)
  obtain ⟨c, r, rfl, -⟩ := hx
  nofun

/-- A signature in which a parameter has a string as default, in single or double quotes, ends the process: `potion_sig` parses without the buffer strings are
collected in. -/
theorem C68_refuted_string {x l y : List Byte} (hx : ParamName x) (hl : Spec.IsString l y) (hs : (x ++ (chars ":=" ++ l)).length < YY_BUFFER_START_SIZE) :
    ∃ f0, ∀ f, f0 ≤ f → potionSig f (some (x ++ (chars ":=" ++ l))) buf thunks text vals yy = some none := by
  obtain ⟨f0, ok, g', d', hf, hr⟩ := sig_parse buf thunks text vals yy hs
  obtain ⟨p, evs, m', h1, h2, h3, r, a, b, e, ha, h4⟩ := strdef_has (P := fun _ _ => true) (inp := x ++ (chars ":=" ++ l)) hx hl R.sig 0 ⟨0, 0, []⟩ (Nat.zero_le _) rfl
  have hc : ∃ c r, x ++ (chars ":=" ++ l) = c :: r := by
    obtain ⟨c, r, rfl, -⟩ := hx
    exact ⟨c, _, rfl⟩
  refine ⟨f0, fun f hf' => ?_⟩
  have hf := hf f hf'
  rcases hr with ⟨rfl, evs', m'', env, env', h5, h6⟩ | ⟨rfl, m'', h5⟩
  · cases Eval.det h3 _ h5
    have this : d'.yy.2.failed = true := runs_fails (A := sigAct) (fun a t env y h => sigAct_failed h) h6 h4 fun t env y _ => by
      unfold sigAct; rw [if_pos ha]
    generalize x ++ (chars ":=" ++ l) = l at *
    obtain ⟨c, l, rfl⟩ := hc
    rw [potionSig_cons, hf]
    show (if d'.yy.2.failed = true then _ else _) = _
    rw [if_pos this]
  · cases Eval.det h3 _ h5
end

/-! ### One text, one declaration -/

/-- What the texts give. -/
def Clear : Decl → Prop
  | .param _ (.typed c) => ∃ b : Byte, b ∈ typeLetters ∧ c = b.toNat
  | .param _ (.modified t m) => (∀ c, t = some c → ∃ b : Byte, b ∈ typeLetters ∧ c = b.toNat) ∧ ∃ b : Byte, b ∈ modifiers ∧ m = b.toNat
  | _ => True

theorem type_num {c : Int} (h : ∃ b : Byte, b ∈ typeLetters ∧ c = b.toNat) : c ≠ 58 ∧ c ≠ 124 ∧ c ≠ 46 ∧ c ≠ 45 ∧ c ≠ 92 ∧ c ≠ 42 := by
  obtain ⟨b, hb, rfl⟩ := h
  have : ∀ c : Byte, c ∈ typeLetters → (c.toNat ≠ 58 ∧ c.toNat ≠ 124 ∧ c.toNat ≠ 46 ∧ c.toNat ≠ 45 ∧ c.toNat ≠ 92 ∧ c.toNat ≠ 42) := by decide +kernel
  have := this b hb
  refine ⟨?_, ?_, ?_, ?_, ?_, ?_⟩ <;> exact_mod_cast (by first | exact this.1 | exact this.2.1 | exact this.2.2.1 | exact this.2.2.2.1 | exact this.2.2.2.2.1 | exact this.2.2.2.2.2)

theorem mod_num {c : Int} (h : ∃ b : Byte, b ∈ modifiers ∧ c = b.toNat) : c = 45 ∨ c = 92 ∨ c = 42 := by
  obtain ⟨b, hb, rfl⟩ := h
  have : ∀ c : Byte, c ∈ modifiers → (c.toNat = 45 ∨ c.toNat = 92 ∨ c.toNat = 42) := by decide +kernel
  exact_mod_cast this b hb

/-- What the elements of declarations begin with. -/
theorem encode_head : ∀ ds, encode ds = [] ∨ (∃ n r, encode ds = .str n :: r) ∨ (∃ r, encode ds = .num 124 :: r) ∨ ∃ r, encode ds = .num 46 :: r
  | [] => .inl rfl
  | .bar :: ds => .inr (.inr (.inl ⟨encode ds, rfl⟩))
  | .dot :: ds => .inr (.inr (.inr ⟨encode ds, rfl⟩))
  | .param n .plain :: ds => .inr (.inl ⟨n, encode ds, rfl⟩)
  | .param n (.typed c) :: ds => .inr (.inl ⟨n, _, rfl⟩)
  | .param n (.deflt c) :: ds => .inr (.inl ⟨n, _, rfl⟩)
  | .param n (.modified none c) :: ds => .inr (.inl ⟨n, _, rfl⟩)
  | .param n (.modified (some t) c) :: ds => .inr (.inl ⟨n, _, rfl⟩)

theorem encode_num {ds c r} (h : encode ds = .num c :: r) : c = 124 ∨ c = 46 := by
  rcases encode_head ds with e | ⟨_, _, e⟩ | ⟨_, e⟩ | ⟨_, e⟩ <;> rw [h] at e
  · cases e
  · cases e
  · exact .inl (Item.num.inj (List.cons.inj e).1)
  · exact .inr (Item.num.inj (List.cons.inj e).1)
theorem encode_other {ds c r} (h : encode ds = .other c :: r) : False := by
  rcases encode_head ds with e | ⟨_, _, e⟩ | ⟨_, e⟩ | ⟨_, e⟩ <;> rw [h] at e <;> cases e

theorem sig_clear {s ds} (h : IsSig s ds) : ∀ d ∈ ds, Clear d := by
  refine sig_all (Q := Clear) ?_ trivial trivial h
  intro s d h
  cases h with
  | typed _ _ _ hc => exact ⟨_, hc, rfl⟩
  | modified hm => exact ⟨nofun, _, hm, rfl⟩
  | modifiedTyped hm _ _ _ hc => exact ⟨fun c e => by cases e; exact ⟨_, hc, rfl⟩, _, hm, rfl⟩
  | _ => trivial

/-- What follows the name of a parameter. -/
def Kind.items : Sig.Kind → List Item
  | .plain => []
  | .typed c => [.num c]
  | .deflt v => [.num 58, v]
  | .modified (some t) m => [.num t, .num m]
  | .modified none m => [.other 0, .num m]

theorem kind_inj {n : List Byte} {k k' : Sig.Kind} {l l' : List Item} (hk : Clear (.param n k)) (hk' : Clear (.param n k')) (e : Kind.items k ++ l = Kind.items k' ++ l')
    (h : ∀ c r, l = .num c :: r → c = 124 ∨ c = 46) (h' : ∀ c r, l' = .num c :: r → c = 124 ∨ c = 46)
    (ho : ∀ c r, l ≠ .other c :: r) (ho' : ∀ c r, l' ≠ .other c :: r) : k = k' ∧ l = l' := by
  have ty : ∀ {c : Int}, (∃ b : Byte, b ∈ typeLetters ∧ c = b.toNat) → ¬ (c = 124 ∨ c = 46) := fun h => by have := type_num h; omega
  have md : ∀ {c : Int}, (∃ b : Byte, b ∈ modifiers ∧ c = b.toNat) → ¬ (c = 124 ∨ c = 46) := fun h => by have := mod_num h; omega
  match k, k' with
  | .plain, .plain => exact ⟨rfl, e⟩
  | .plain, .typed c => exact absurd (h _ _ e) (ty hk')
  | .plain, .deflt v => exact absurd (h _ _ e) (by decide)
  | .plain, .modified (some t) m => exact absurd (h _ _ e) (ty (hk'.1 _ rfl))
  | .plain, .modified none m => exact absurd e (ho _ _)
  | .typed c, .plain => exact absurd (h' _ _ e.symm) (ty hk)
  | .typed c, .typed c' => injection e with e1 e2; cases e1; exact ⟨rfl, e2⟩
  | .typed c, .deflt v => injection e with e1 e2; cases e1; exact absurd rfl (type_num hk).1
  | .typed c, .modified (some t) m => injection e with e1 e2; exact absurd (h _ _ e2) (md hk'.2)
  | .typed c, .modified none m => injection e with e1 e2; cases e1
  | .deflt v, .plain => exact absurd (h' _ _ e.symm) (by decide)
  | .deflt v, .typed c => injection e with e1 e2; cases e1; exact absurd rfl (type_num hk').1
  | .deflt v, .deflt v' => injection e with e1 e2; injection e2 with e2 e3; cases e2; exact ⟨rfl, e3⟩
  | .deflt v, .modified (some t) m => injection e with e1 e2; cases e1; exact absurd rfl (type_num (hk'.1 _ rfl)).1
  | .deflt v, .modified none m => injection e with e1 e2; cases e1
  | .modified (some t) m, .plain => exact absurd (h' _ _ e.symm) (ty (hk.1 _ rfl))
  | .modified (some t) m, .typed c => injection e with e1 e2; exact absurd (h' _ _ e2.symm) (md hk.2)
  | .modified (some t) m, .deflt v => injection e with e1 e2; cases e1; exact absurd rfl (type_num (hk.1 _ rfl)).1
  | .modified (some t) m, .modified (some t') m' => injection e with e1 e2; injection e2 with e2 e3; cases e1; cases e2; exact ⟨rfl, e3⟩
  | .modified (some t) m, .modified none m' => injection e with e1 e2; cases e1
  | .modified none m, .plain => exact absurd e.symm (ho' _ _)
  | .modified none m, .typed c => injection e with e1 e2; cases e1
  | .modified none m, .deflt v => injection e with e1 e2; cases e1
  | .modified none m, .modified (some t') m' => injection e with e1 e2; cases e1
  | .modified none m, .modified none m' => injection e with e1 e2; injection e2 with e2 e3; cases e2; exact ⟨rfl, e3⟩

theorem encode_param (n k ds) : encode (.param n k :: ds) = .str n :: (Kind.items k ++ encode ds) := by
  rcases k with _ | c | v | ⟨_ | t, m⟩ <;> rfl

theorem encode_inj : ∀ {ds ds'}, (∀ d ∈ ds, Clear d) → (∀ d ∈ ds', Clear d) → encode ds = encode ds' → ds = ds'
  | [], [], _, _, _ => rfl
  | [], .param n k :: ds', _, _, e => by rw [encode_param] at e; cases e
  | [], .bar :: ds', _, _, e => by cases e
  | [], .dot :: ds', _, _, e => by cases e
  | .param n k :: ds, [], _, _, e => by rw [encode_param] at e; cases e
  | .bar :: ds, [], _, _, e => by cases e
  | .dot :: ds, [], _, _, e => by cases e
  | .bar :: ds, .bar :: ds', h, h', e => by
    rw [encode_inj (fun d hd => h d (by simp [hd])) (fun d hd => h' d (by simp [hd])) (List.cons.inj e).2]
  | .dot :: ds, .dot :: ds', h, h', e => by
    rw [encode_inj (fun d hd => h d (by simp [hd])) (fun d hd => h' d (by simp [hd])) (List.cons.inj e).2]
  | .bar :: ds, .dot :: ds', _, _, e => by injection e with e _; cases e
  | .dot :: ds, .bar :: ds', _, _, e => by injection e with e _; cases e
  | .bar :: ds, .param n k :: ds', _, _, e => by rw [encode_param] at e; injection e with e _; cases e
  | .dot :: ds, .param n k :: ds', _, _, e => by rw [encode_param] at e; injection e with e _; cases e
  | .param n k :: ds, .bar :: ds', _, _, e => by rw [encode_param] at e; injection e with e _; cases e
  | .param n k :: ds, .dot :: ds', _, _, e => by rw [encode_param] at e; injection e with e _; cases e
  | .param n k :: ds, .param n' k' :: ds', h, h', e => by
    rw [encode_param, encode_param] at e
    injection e with e1 e2
    cases e1
    obtain ⟨rfl, e3⟩ := kind_inj (n := n) (h _ (by simp)) (h' _ (by simp)) e2 (fun c r => encode_num) (fun c r => encode_num) (fun c r => encode_other) (fun c r => encode_other)
    rw [encode_inj (fun d hd => h d (by simp [hd])) (fun d hd => h' d (by simp [hd])) e3]

/-- No text declares two things, -/
theorem C68_unambiguous {s ds ds'} (h : IsSig s ds) (h' : IsSig s ds') (hs : s.length < YY_BUFFER_START_SIZE) : ds = ds' := by
  obtain ⟨f, a, e, hf⟩ := C68_signature (fun _ => 0) (fun _ => .pop 0) [] (fun _ => (.nil, ⟨[], .nil, false⟩)) .nil h hs
  obtain ⟨f', a', e', hf'⟩ := C68_signature (fun _ => 0) (fun _ => .pop 0) [] (fun _ => (.nil, ⟨[], .nil, false⟩)) .nil h' hs
  have := (hf (max f f') (by omega)).symm.trans (hf' (max f f') (by omega))
  cases this
  exact encode_inj (sig_clear h) (sig_clear h') (e.symm.trans e')

section
variable (buf : Nat → Byte) (thunks : Nat → Thunk) (text : List Byte) (vals : Env) (yy : Tree)

/-- and the tuple determines what was declared. -/
theorem C68_faithful {s s' ds ds' t} (h : IsSig s ds) (h' : IsSig s' ds') (hs : s.length < YY_BUFFER_START_SIZE) (hs' : s'.length < YY_BUFFER_START_SIZE)
    {f f'} (hf : ∀ n, f ≤ n → potionSig n (some s) buf thunks text vals yy = some (some t)) (hf' : ∀ n, f' ≤ n → potionSig n (some s') buf thunks text vals yy = some (some t)) : ds = ds' := by
  obtain ⟨f1, a, e1, h1⟩ := C68_signature buf thunks text vals yy h hs
  obtain ⟨f2, a', e2, h2⟩ := C68_signature buf thunks text vals yy h' hs'
  have x1 := (h1 (max f f1) (by omega)).symm.trans (hf (max f f1) (by omega))
  have x2 := (h2 (max f' f2) (by omega)).symm.trans (hf' (max f' f2) (by omega))
  cases x1
  cases x2
  exact encode_inj (sig_clear h) (sig_clear h') (e1.symm.trans e2)
end

/-! ### Examples: signatures of core/string.c:501, lib/buffile.c:309, core/table.c:968 and one with more forms -/

def nameTest : List Byte → Bool
  | [] => false
  | c :: r => Spec.isLetter c && r.all fun d => Spec.isLetter d || Spec.isDigitChar d
theorem name_ex {x : List Byte} (h : nameTest x = true) : ParamName x := by
  cases x with
  | nil => cases h
  | cons c r =>
    simp only [nameTest, Bool.and_eq_true, List.all_eq_true, Bool.or_eq_true] at h
    exact ⟨c, r, rfl, h.1, h.2⟩
theorem no_blank : Blank [] := by intro c h; cases h
theorem one_blank : Blank (chars " ") := by intro c h; revert c; decide

/-- `start=N|end=N` -/
theorem sig_range : IsSig (chars "start=N|end=N") [.param (chars "start") (.typed 78), .bar, .param (chars "end") (.typed 78)] :=
  .args (w := []) (.list (.both (w := []) (w' := []) (.one (.typed (x := chars "start") (w := []) (g := []) (c := 0x4E#8) (name_ex (by decide +kernel)) no_blank .nil (by decide)))
    no_blank no_blank (.one (.typed (x := chars "end") (w := []) (g := []) (c := 0x4E#8) (name_ex (by decide +kernel)) no_blank .nil (by decide))))) no_blank

/-- `fmt=S|...` -/
theorem sig_fmt : IsSig (chars "fmt=S|...") [.param (chars "fmt") (.typed 83), .bar, .dot] :=
  .args (w := []) (.list (.both (w := []) (w' := []) (.one (.typed (x := chars "fmt") (w := []) (g := []) (c := 0x53#8) (name_ex (by decide +kernel)) no_blank .nil (by decide)))
    no_blank no_blank (.one .rest))) no_blank

/-- `start:=0,end:=nil` -/
theorem sig_slice : IsSig (chars "start:=0,end:=nil") [.param (chars "start") (.deflt (.num 0)), .param (chars "end") (.deflt (.other 0))] :=
  .args (w := []) (.list (.set (.more (w := []) (w' := []) (.deflt (x := chars "start") (w := []) (g := []) (s := chars "0") (v := pnNum 0) (name_ex (by decide +kernel)) no_blank .nil
      (.argLit (.int (ds := [0]) ⟨by decide, .inl rfl⟩))) no_blank no_blank
    (.one (.deflt (x := chars "end") (w := []) (g := []) (v := PN_NIL) (name_ex (by decide +kernel)) no_blank .nil (.argLit .nil)))))) no_blank

/-- `-x =N, *y . z ...` -/
theorem sig_mixed : IsSig (chars "-x =N, *y . z ...") [.param (chars "x") (.modified (some 78) 45), .param (chars "y") (.modified none 42), .dot, .param (chars "z") .plain, .dot] :=
  .rest (s := chars "-x =N, *y . z") (w := chars " ") (w' := [])
    (.dot (w := chars " ") (w' := chars " ") (.set (.more (w := []) (w' := chars " ")
      (.modifiedTyped (m := 0x2D#8) (x := chars "x") (w := chars " ") (g := []) (c := 0x4E#8) (by decide) (name_ex (by decide +kernel)) one_blank .nil (by decide)) no_blank one_blank
      (.one (.modified (m := 0x2A#8) (x := chars "y") (by decide) (name_ex (by decide +kernel)))))) one_blank one_blank
      (.list (.set (.one (.plain (name_ex (by decide +kernel))))))) one_blank no_blank

section
variable (buf : Nat → Byte) (thunks : Nat → Thunk) (text : List Byte) (vals : Env) (yy : Tree)
/-- `slice` of tuples has two parameters, none mandatory, `end` is the second. -/
example : ∃ f0 a, (∀ f, f0 ≤ f → potionSig f (some (chars "start:=0,end:=nil")) buf thunks text vals yy = some (some (.tup a))) ∧
    Sig.arity (a.map itemOf) = some 2 ∧ minargs (a.map itemOf) = 0 ∧ find (a.map itemOf) (.str (chars "end")) = 1 := by
  obtain ⟨f0, a, h1, h2, h3, -, h5⟩ := C68_queries_partial buf thunks text vals yy sig_slice (by simp [Decl.Not58]) (by decide)
  exact ⟨f0, a, h1, h2, h3, (h5 _).trans (by decide +kernel)⟩

/-- `x=Num` declares `x` and `um`. -/
example : ∃ f0 a, a.map itemOf = [.str (chars "x"), .num 78, .str (chars "um")] ∧ ∀ f, f0 ≤ f → potionSig f (some (chars "x=Num")) buf thunks text vals yy = some (some (.tup a)) :=
  C68_refuted_type buf thunks text vals yy (x := chars "x") (c := 0x4E#8) (s := chars "um") (ds := [.param (chars "um") .plain]) (name_ex (by decide +kernel)) (by decide)
    (.args (s := chars "um") (w := []) (.list (.set (.one (.plain (name_ex (by decide +kernel)))))) no_blank) (Peg.Head.cons (by decide +kernel)) (by decide)

/-- `x:='a'` and `x:="a"` end the process. -/
example : ∃ f0, ∀ f, f0 ≤ f → potionSig f (some (chars "x:='a'")) buf thunks text vals yy = some none :=
  C68_refuted_string buf thunks text vals yy (x := chars "x") (l := chars "'a'") (name_ex (by decide +kernel))
    (.single (.char (.ascii (c := 0x61#8) (by decide)) (by decide) .nil)) (by decide)
example : ∃ f0, ∀ f, f0 ≤ f → potionSig f (some (chars "x:=\"a\"")) buf thunks text vals yy = some none :=
  C68_refuted_string buf thunks text vals yy (x := chars "x") (l := chars "\"a\"") (name_ex (by decide +kernel))
    (.double (.char (.ascii (c := 0x61#8) (by decide)) (by decide) (by decide) .nil)) (by decide)
end

end Potion.Greg
