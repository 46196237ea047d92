import Verif.Proof.SigShow
import Verif.Props.SigText
import Verif.Proof.Mt
/-! C81: the text of a signature, and of a function. -/
namespace Potion.Show
open Potion Potion.Bytes Potion.Spec Potion.Dec Potion.Sig
open Potion.Greg (itemOf potionSig Thunk Env YY_BUFFER_START_SIZE)
open Potion.Peg (Tree)

/-- C81: the text of the tuple of declarations: names, types after `=`, defaults after `:=`, bars, dots, and commas between parameters. -/
theorem C81_signature_partial (junk : Nat → Byte) (ds : List Decl) (h : ∀ d ∈ ds, d.Plain) (hl : (sigText ds).length < 2 ^ 31) :
    sigString junk (some (encode ds)) = some (sigText ds) := by
  obtain ⟨b0, e0, h0⟩ := byteStr2_spec junk [] (by decide)
  have hp := pieces_text ds 0 h
  rw [show (if decide (0 > 0) && startsParam ds then chars "," else []) = [] from rfl, List.nil_append] at hp
  obtain ⟨b1, e1, h1⟩ := loop_ok junk (encode ds) false 0 b0 [] (known_encode h) h0 (by rw [hp]; simpa using hl)
  show (sigLoop junk (encode ds) false 0 (byteStr2 junk [])).map strB = _
  rw [e0, e1, Option.map_some, strB_ok h1, hp, List.nil_append]

/-- C81: the text of a function: `function`, its name if it has one, its signature in parentheses. -/
theorem C81_function_partial (junk : Nat → Byte) (name : Option (List Byte)) (ds : List Decl) (h : ∀ d ∈ ds, d.Plain)
    (hl : (name.getD []).length + (sigText ds).length + 12 < 2 ^ 31) :
    closureString junk name (some (encode ds)) =
      some (chars "function" ++ nameText name ++ chars "(" ++ sigText ds ++ chars ")") := by
  have l8 : (chars "function").length = 8 := rfl
  have l1 : ∀ s, s ∈ ["(", ")", " "] → (chars s).length = 1 := by decide
  obtain ⟨b0, e0, h0⟩ := byteStr2_spec junk (chars "function") (by decide)
  have e1 : ∃ b1, addName junk name b0 = some b1 ∧
      Holds b1 (chars "function" ++ nameText name) := by
    cases name with
    | none => exact ⟨b0, rfl, by simpa [nameText] using h0⟩
    | some n =>
      exact printf_spec h0 junk _ (by simp only [Option.getD_some] at hl; rw [List.length_append, l8, l1 " " (by simp)]; omega)
  obtain ⟨b1, e1, h1⟩ := e1
  have e2 : (nameText name).length ≤ (name.getD []).length + 1 := by
    cases name with
    | none => exact Nat.zero_le _
    | some n => simp only [Option.getD_some]; unfold nameText; rw [List.length_append, l1 " " (by simp)]; omega
  obtain ⟨b2, e3, h2⟩ := lit_ok junk "(" h1 (by rw [List.length_append, l8, l1 "(" (by simp)]; omega)
  obtain ⟨b3, e4, h3⟩ := obj_ok (s := sigText ds) junk h2 (by simp only [List.length_append, l8, l1 "(" (by simp)]; omega)
  obtain ⟨b4, e5, h4⟩ := lit_ok junk ")" h3 (by simp only [List.length_append, l8, l1 "(" (by simp), l1 ")" (by simp)]; omega)
  unfold closureString
  dsimp only
  rw [e0, C81_signature_partial junk ds h (by omega)]
  dsimp only
  rw [e1, e3, e4, e5, Option.map_some, strB_ok h4]

theorem sigText_split (d : Decl) (hd : d.isParam = false) (ds' : List Decl) : ∀ ds, sigText (ds ++ d :: ds') = sigText ds ++ (d.text ++ sigText ds')
  | [] => by simp [sigText, hd]
  | x :: ds => by
    have e : startsParam (ds ++ d :: ds') = startsParam ds := by cases ds <;> simp [startsParam, hd]
    show x.text ++ (if x.isParam && startsParam (ds ++ d :: ds') then chars "," else []) ++ sigText (ds ++ d :: ds') = _
    rw [e, sigText_split d hd ds' ds, sigText]
    simp only [List.append_assoc]

theorem value_reads {v : Item} (h : PlainValue v) : ∃ w, Reads .arg (valueText v) (node1 .value (.imm w)) ∧ itemOf (.imm w) = v := by
  have o : ∀ w : PN, w.getLsbD 0 = false → itemOf (.imm w) = .other w := by
    intro w h; show (if w.getLsbD 0 = true then _ else _) = _; rw [h]; rfl
  cases v with
  | str s => exact absurd h id
  | other w =>
    rcases h with rfl | rfl | rfl
    · exact ⟨PN_NIL, .argLit .nil, o _ rfl⟩
    · exact ⟨PN_TRUE, .argLit .true, o _ rfl⟩
    · exact ⟨PN_FALSE, .argLit .false, o _ rfl⟩
  | num i =>
    obtain ⟨hr, -⟩ := h
    obtain ⟨h1, h2, h3⟩ := digits_ok i.natAbs
    have n : itemOf (.imm (pnNum i)) = .num i := by
      have : (pnNum i).getLsbD 0 = true := (Mt.and_one _).1 (by have := isInt_pnNum i; unfold isInt at this; simpa using this)
      show (if (pnNum i).getLsbD 0 = true then _ else _) = _
      rw [if_pos this, pnInt_pnNum_of_fits (by unfold Fits63; unfold InRange at hr; omega)]
    refine ⟨pnNum i, ?_, n⟩
    rw [valueText, Datum.text]
    by_cases hi : i < 0
    · rw [if_pos hi]
      have := Reads.argNeg ⟨h1, h2⟩ (ds := digits i.natAbs) (by
        intro e; rw [e] at h3; simp [numeral] at h3; omega)
      rw [h3] at this
      rwa [show -((i.natAbs : Nat) : Int) = i by omega] at this
    · rw [if_neg hi]
      have := Reads.argLit (Reads.int ⟨h1, h2⟩)
      rw [h3] at this
      rwa [show ((i.natAbs : Nat) : Int) = i by omega] at this

theorem param_is {d : Decl} (h : d.Plain) (hp : d.isParam = true) : IsParam d.text d := by
  cases d with
  | bar => cases hp
  | dot => cases hp
  | param n k =>
    cases k with
    | plain => exact .plain h
    | modified t m => exact absurd h id
    | typed c =>
      obtain ⟨hn, b, hb, rfl⟩ := h
      have := IsParam.typed hn (w := []) (g := []) blank_nil .nil hb
      simpa [Decl.text] using this
    | deflt v =>
      obtain ⟨hn, hv⟩ := h
      obtain ⟨w, h1, rfl⟩ := value_reads hv
      have := IsParam.deflt hn (w := []) (g := []) blank_nil .nil h1
      simpa [Decl.text] using this

theorem set_is : ∀ {ds : List Decl}, (∀ d ∈ ds, d.Plain) → Params ds → IsSet (sigText ds) ds
  | [], _, h => absurd rfl h.1
  | [d], h, hp => by
    have := IsSet.one (param_is (h d (by simp)) (hp.2 d (by simp)))
    simpa [sigText, startsParam] using this
  | d :: d' :: ds, h, hp => by
    have h1 := param_is (h d (by simp)) (hp.2 d (by simp))
    have h2 : IsSet (sigText (d' :: ds)) (d' :: ds) := set_is (fun x hx => h x (by simp at hx ⊢; tauto)) ⟨by simp, fun x hx => hp.2 x (by simp at hx ⊢; tauto)⟩
    have := IsSet.more h1 (w := []) (w' := []) blank_nil blank_nil h2
    have e1 : d.isParam = true := hp.2 d (by simp)
    have e2 : d'.isParam = true := hp.2 d' (by simp)
    rw [sigText, e1, show startsParam (d' :: ds) = true from e2]
    simpa using this

theorem group_is {ds : List Decl} (h : ∀ d ∈ ds, d.Plain) (hg : Group ds) : IsList (sigText ds) ds := by
  cases hg with
  | set hp => exact .set (set_is h hp)
  | @both a b ha hb =>
    have := IsList.both (set_is (fun d hd => h d (by simp [hd])) ha) (w := []) (w' := []) blank_nil blank_nil (set_is (fun d hd => h d (by simp [hd])) hb)
    rw [sigText_split _ rfl]
    simpa [Decl.text] using this
  | @optional b hb =>
    have := IsList.optional (w := []) blank_nil (set_is (fun d hd => h d (by simp [hd])) hb)
    have e := sigText_split .bar rfl b []
    rw [List.nil_append] at e
    rw [e]
    simpa [Decl.text, sigText] using this

theorem groups_is {ds : List Decl} (hg : Groups ds) (h : ∀ d ∈ ds, d.Plain) : IsArgs (sigText ds) ds := by
  induction hg with
  | group hg => exact .list (group_is h hg)
  | dot hg _ ih =>
    have := IsArgs.dot (group_is (fun d hd => h d (by simp [hd])) hg) (w := []) (w' := []) blank_nil blank_nil (ih fun d hd => h d (by simp [hd]))
    rw [sigText_split _ rfl]
    simpa [Decl.text] using this

section
variable (junk buf : Nat → Byte) (thunks : Nat → Thunk) (text : List Byte) (vals : Env) (yy : Tree)

/-- C81: the text of a signature declares the same parameters: a signature `s` is made into a tuple, whose text, made into a tuple again, gives the same. -/
theorem C81_readback_partial {s ds} (h : IsSig s ds) (hd : ∀ d ∈ ds, d.Plain) (hg : Groups ds) (hs : s.length < YY_BUFFER_START_SIZE)
    (hl : (sigText ds).length < YY_BUFFER_START_SIZE) :
    ∃ f0 a t f1 a', (∀ f, f0 ≤ f → potionSig f (some s) buf thunks text vals yy = some (some (.tup a))) ∧ sigString junk (some (a.map itemOf)) = some t ∧
      IsSig t ds ∧ (∀ f, f1 ≤ f → potionSig f (some t) buf thunks text vals yy = some (some (.tup a'))) ∧ a'.map itemOf = a.map itemOf := by
  obtain ⟨f0, a, e, hf⟩ := Greg.C68_signature buf thunks text vals yy h hs
  have hi : IsSig (sigText ds) ds := by simpa using IsSig.args (w := []) (groups_is hg hd) blank_nil
  obtain ⟨f1, a', e', hf'⟩ := Greg.C68_signature buf thunks text vals yy hi hl
  exact ⟨f0, a, sigText ds, f1, a', hf, by rw [e]; exact C81_signature_partial junk ds hd (by unfold YY_BUFFER_START_SIZE at hl; omega), hi, hf', by rw [e, e']⟩
end

/-- C81: signatures with the same text declare the same. -/
theorem C81_unique_partial (junk : Nat → Byte) {ds ds' : List Decl} (hd : ∀ d ∈ ds, d.Plain) (hd' : ∀ d ∈ ds', d.Plain) (hg : Groups ds) (hg' : Groups ds')
    (hl : (sigText ds).length < YY_BUFFER_START_SIZE) (hl' : (sigText ds').length < YY_BUFFER_START_SIZE)
    (e : sigString junk (some (encode ds)) = sigString junk (some (encode ds'))) : ds = ds' := by
  rw [C81_signature_partial junk ds hd (by unfold YY_BUFFER_START_SIZE at hl; omega),
    C81_signature_partial junk ds' hd' (by unfold YY_BUFFER_START_SIZE at hl'; omega)] at e
  have e := Option.some.inj e
  have h1 : IsSig (sigText ds) ds := by simpa using IsSig.args (w := []) (groups_is hg hd) blank_nil
  have h2 : IsSig (sigText ds') ds' := by simpa using IsSig.args (w := []) (groups_is hg' hd') blank_nil
  rw [← e] at h2
  exact Greg.C68_unambiguous h1 h2 hl

/-- An example of the hypotheses: `a,b=N|c:=-5.d`. -/
def shown : List Decl := [.param (chars "a") .plain, .param (chars "b") (.typed 78), .bar, .param (chars "c") (.deflt (.num (-5))), .dot, .param (chars "d") .plain]
example : (∀ d ∈ shown, d.Plain) ∧ Groups shown ∧ sigText shown = chars "a,b=N|c:=-5.d" := by
  have nm : ∀ x, x ∈ ["a", "b", "c", "d"] → ParamName (chars x) := by
    intro x hx
    have : ∃ c, chars x = [c] ∧ isLetter c = true := by
      have : ∀ x ∈ ["a", "b", "c", "d"], ∃ c, chars x = [c] ∧ isLetter c = true := by decide
      exact this x hx
    obtain ⟨c, e, h⟩ := this
    exact ⟨c, [], e, h, nofun⟩
  refine ⟨?_, ?_, ?_⟩
  · intro d hd
    simp only [shown, List.mem_cons, List.not_mem_nil, or_false] at hd
    rcases hd with rfl | rfl | rfl | rfl | rfl | rfl
    · exact nm "a" (by simp)
    · exact ⟨nm "b" (by simp), 0x4E#8, by decide, rfl⟩
    · trivial
    · exact ⟨nm "c" (by simp), by unfold InRange; omega, by decide, by decide, by decide⟩
    · trivial
    · exact nm "d" (by simp)
  · exact .dot (ds := [_, _, .bar, _]) (.both (ds := [_, _]) ⟨by simp, by simp [Decl.isParam]⟩ ⟨by simp, by simp [Decl.isParam]⟩) (.group (.set ⟨by simp, by simp [Decl.isParam]⟩))
  · simp [shown, sigText, Decl.text, startsParam, Decl.isParam, valueText, Datum.text, digits, chars, digitChar]

/-- C81: the text of `-x` is `x,nil=-`; a default is shown as a dot if it is 46, or if the low half of it is; of `x...` one dot is shown, which is not a signature. -/
theorem C81_refuted (junk : Nat → Byte) :
    sigString junk (some (encode [.param (chars "x") (.modified none 45)])) = some (chars "x,nil=-") ∧
    sigString junk (some (encode [.param (chars "x") (.deflt (.num 46))])) = some (chars "x:.") ∧
    sigString junk (some (encode [.param (chars "x") (.deflt (.num (2 ^ 32 + 46)))])) = some (chars "x:.") ∧
    sigString junk (some (encode [.param (chars "x") .plain, .dot])) = some (chars "x.") := by
  have key : ∀ l t, (∀ v ∈ l, Known v) → pieces l false 0 = t → t.length < 2 ^ 31 → sigString junk (some l) = some t := by
    intro l t hk e hl
    obtain ⟨b0, e0, h0⟩ := byteStr2_spec junk [] (by decide)
    obtain ⟨b1, e1, h1⟩ := loop_ok junk l false 0 b0 [] hk h0 (by rw [e]; simpa using hl)
    show (sigLoop junk l false 0 (byteStr2 junk [])).map strB = _
    rw [e0, e1, Option.map_some, strB_ok h1, e, List.nil_append]
  refine ⟨key _ _ ?_ rfl (by decide), key _ _ ?_ rfl (by decide), key _ _ ?_ rfl (by decide), key _ _ ?_ rfl (by decide)⟩ <;>
    intro v hv <;> simp [encode, Decl.items] at hv
  · rcases hv with rfl | rfl | rfl
    · trivial
    · exact .inl rfl
    · show InRange 45; unfold InRange; omega
  · rcases hv with rfl | rfl | rfl
    · trivial
    · show InRange 58; unfold InRange; omega
    · show InRange 46; unfold InRange; omega
  · rcases hv with rfl | rfl | rfl
    · trivial
    · show InRange 58; unfold InRange; omega
    · show InRange _; unfold InRange; omega
  · rcases hv with rfl | rfl
    · trivial
    · show InRange 46; unfold InRange; omega

end Potion.Show
