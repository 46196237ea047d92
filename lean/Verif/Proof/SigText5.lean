import Verif.Proof.SigText4
namespace Potion.Greg
open Potion.Peg (PExp NT Tree Kind)
open Potion.Spec (Blank Gap Reads chars node1)
open Potion.Sig (IsParam IsSet IsList IsArgs IsSig Decl ParamName typeLetters modifiers encode)

theorem IsSet.starts {s ds} (h : IsSet s ds) : Starts s := by
  have key : ∀ {s t}, Starts s → Starts (s ++ t) := by
    rintro s t ⟨c, r, rfl, h⟩; exact ⟨c, r ++ t, rfl, h⟩
  cases h with
  | one h => exact IsParam.starts h
  | more h => exact key (IsParam.starts h)

theorem IsList.starts {s ds} (h : IsList s ds) : Starts s := by
  have key : ∀ {s t}, Starts s → Starts (s ++ t) := by
    rintro s t ⟨c, r, rfl, h⟩; exact ⟨c, r ++ t, rfl, h⟩
  cases h with
  | set h => exact IsSet.starts h
  | both h => exact key (IsSet.starts h)
  | optional h => exact ⟨0x7C#8, _, rfl, by decide, by decide⟩

theorem IsArgs.starts {s ds} (h : IsArgs s ds) : Starts s := by
  have key : ∀ {s t}, Starts s → Starts (s ++ t) := by
    rintro s t ⟨c, r, rfl, h⟩; exact ⟨c, r ++ t, rfl, h⟩
  cases h with
  | list h => exact IsList.starts h
  | dot h => exact key (IsList.starts h)

theorem fin_comma {i} : Fin (chars "," ++ i) := ⟨Peg.Head.cons (.inl rfl), by intro d r h; cases h⟩
theorem fin_bar {i} : Fin (chars "|" ++ i) := ⟨Peg.Head.cons (.inr (.inl rfl)), by intro d r h; cases h⟩
theorem fin_dot {i} (h : Peg.Head (fun c => Spec.isDigitChar c = false) i) : Fin (chars "." ++ i) :=
  ⟨Peg.Head.cons (.inr (.inr rfl)), by intro d r e; exact h d r (List.cons.inj e).2⟩

theorem encode_cons (d ds) : encode (d :: ds) = d.items ++ encode ds := by simp [encode]
theorem encode_append (a b) : encode (a ++ b) = encode a ++ encode b := by simp [encode]
theorem encode_one (d) : encode [d] = d.items := by simp [encode]

section
variable {P : Nat → List Byte → Bool} {inp : List Byte}
local notation "Ev'" => Eval potionGrammar P inp
local notation "Run'" => Runs sigAct inp
local notation "D" => Does P inp
local notation "M" => Miss P inp

def moreArgs : Exp := .star (sequ [.name R.comma none, .name R.sp none, .name R.arg none])
def moreLists : Exp := .star (sequ [.name R.arg_sep none, .name R.arg_list none])

theorem comma_d {i} : D (.name R.comma none) (chars "," ++ i) i Kq := quiet_of S.comma ⟨_, Peg.lit_ok (chars ",") i⟩
theorem comma_miss {i} (h : Peg.Head (fun c => c ≠ 0x2C#8) i) : M (.name R.comma none) i :=
  miss_of S.comma (Peg.fails_head (by decide) (by decide) (h.mono (by decide +kernel)))

theorem optional_d {w i} (hw : Blank w) (hi : Peg.WsStop i) : D (.name R.optional none) (chars "|" ++ (w ++ i)) i (Ka [.num 124]) := by
  refine (Does.name (A := Adds [.num 124]) rfl (Does.cons Does.chr (Does.cons (sp_d hw hi) (Does.cons .act .nil))) ?_).mono fun env y env' y' h => h
  rintro env y env' y' ⟨_, _, ⟨rfl, rfl⟩, _, _, ⟨rfl, rfl⟩, _, _, ⟨t, e⟩, rfl, rfl⟩
  exact push_adds (l := [.imm (pnNum 124)]) e rfl

theorem sep_d {w i} (hw : Blank w) (hi : Peg.WsStop i) : D (.name R.arg_sep none) (chars "." ++ (w ++ i)) i (Ka [.num 46]) := by
  refine (Does.name (A := Adds [.num 46]) rfl (Does.cons Does.chr (Does.cons (sp_d hw hi) (Does.cons .act .nil))) ?_).mono fun env y env' y' h => h
  rintro env y env' y' ⟨_, _, ⟨rfl, rfl⟩, _, _, ⟨rfl, rfl⟩, _, _, ⟨t, e⟩, rfl, rfl⟩
  exact push_adds (l := [.imm (pnNum 46)]) e rfl

theorem head_ne {c : Byte} {i} (h : Peg.Head (fun d => d ≠ c) i) : i.head? ≠ some c := by
  cases i with
  | nil => simp
  | cons d i => have := h d i rfl; simpa using this

theorem optional_miss {i} (h : Peg.Head (fun c => c ≠ 0x7C#8) i) : M (.name R.optional none) i := Miss.name rfl (Miss.head (Miss.chr (head_ne h)))
theorem sep_miss {i} (h : Peg.Head (fun c => c ≠ 0x2E#8) i) : M (.name R.arg_sep none) i := Miss.name rfl (Miss.head (Miss.chr (head_ne h)))

theorem arg_miss {i} (h : Peg.Head (fun c => c = 0x2E#8 ∨ c = 0x7C#8) i) (h3 : ¬ [0x2E#8, 0x2E#8, 0x2E#8] <+: i) : M (.name R.arg none) i := by
  have n1 : ∀ {v}, M (.name R.arg_name v) i := arg_name_miss (name_fail (h.mono (by decide +kernel)))
  have n2 : ∀ {v}, M (.name R.arg_modifier v) i := modifier_miss (h.mono (by decide +kernel))
  refine Miss.name rfl (Miss.alt (Miss.head n2) (Miss.alt (Miss.head n2) (Miss.alt (Miss.head n1) (Miss.alt (Miss.head n1) (Miss.alt (Miss.head n1) (Miss.alt1
    (Miss.name rfl (Miss.head ?_))))))))
  intro r pos m hp hi
  exact ⟨m, .strFail (by rw [hi]; exact h3)⟩

theorem set_miss {i} (h : Peg.Head (fun c => c = 0x2E#8 ∨ c = 0x7C#8) i) (h3 : ¬ [0x2E#8, 0x2E#8, 0x2E#8] <+: i) : M (.name R.arg_set none) i :=
  Miss.name rfl (Miss.head (arg_miss h h3))
theorem list_miss {i} (h : Peg.Head (fun c => c = 0x2E#8) i) (h3 : ¬ [0x2E#8, 0x2E#8, 0x2E#8] <+: i) : M (.name R.arg_list none) i :=
  Miss.name rfl (Miss.alt (Miss.head (set_miss (h.mono fun _ => .inl) h3)) (Miss.alt1 (Miss.head (optional_miss (h.mono (by decide +kernel))))))
theorem args_miss : M (.name R.args none) [] := Miss.name rfl (Miss.head (list_miss Peg.Head.nil (by decide)))

theorem ka_cons {e l i j k a b} (h : D e i j (Ka a)) (h' : D (.seq l) j k (Ka b)) : D (.seq (.cons e l)) i k (Ka (a ++ b)) := by
  refine (Does.cons h h').mono ?_
  rintro env y env' y' ⟨_, y1, ⟨rfl, e1⟩, rfl, e2⟩
  exact ⟨rfl, e1.trans e2⟩
theorem kq_ka {e i j} (h : D e i j Kq) : D e i j (Ka []) := h.mono fun _ _ _ _ ⟨a, b⟩ => ⟨a, by rw [b]; exact Adds.none rfl rfl⟩
theorem ka_end {i} : D (.seq .nil) i i (Ka []) := kq_ka .nil
theorem ka_one {e i j a} (h : D e i j (Ka a)) : D (sequ [e]) i j (Ka a) := by have := ka_cons h ka_end; rwa [List.append_nil] at this
theorem ka_more {e i j k a b} (h : D e i j (Ka a)) (h' : D (.star e) j k (Ka b)) : D (.star e) i k (Ka (a ++ b)) := by
  refine (Does.more h h').mono ?_
  rintro env y env' y' ⟨_, y1, ⟨rfl, e1⟩, rfl, e2⟩
  exact ⟨rfl, e1.trans e2⟩
theorem ka_plus {e i j k a b} (h : D e i j (Ka a)) (h' : D (.star e) j k (Ka b)) : D (.plus e) i k (Ka (a ++ b)) := by
  refine (Does.plus h h').mono ?_
  rintro env y env' y' ⟨_, y1, ⟨rfl, e1⟩, rfl, e2⟩
  exact ⟨rfl, e1.trans e2⟩
theorem ka_name {r i j a} {ru : Rule} (hr : potionGrammar[r]? = some ru) (h : D ru.body i j (Ka a)) : D (.name r none) i j (Ka a) :=
  (Does.name (A := Adds a) hr h fun _ _ _ _ h => h.2).mono fun _ _ _ _ h => h

/-! ### Lists of parameters -/

theorem more_d {s ds w w' k} (h : IsSet s ds) (hw : Blank w) (hw' : Blank w') (hk : Fin k) (hc : Peg.Head (fun c => c ≠ 0x2C#8) k) :
    D moreArgs (chars "," ++ (w' ++ (s ++ (w ++ k)))) k (Ka (encode ds)) := by
  induction h generalizing w' with
  | @one s d h =>
    have h1 := ka_cons (kq_ka comma_d) (ka_cons (kq_ka (sp_d hw' (k := s ++ (w ++ k)) (IsParam.starts h).ws)) (ka_one (param_d (P := P) (inp := inp) h hw hk)))
    have := ka_more h1 (kq_ka (Does.stop (Miss.head (comma_miss hc))))
    rw [encode_one]
    simp only [List.nil_append, List.append_nil] at this
    exact this
  | @more s d w1 w2 s' ds h hw1 hw2 hs ih =>
    have e0 : s ++ (w1 ++ (chars "," ++ (w2 ++ s'))) ++ (w ++ k) = s ++ (w1 ++ (chars "," ++ (w2 ++ (s' ++ (w ++ k))))) := by simp
    rw [e0, encode_cons]
    have h1 := ka_cons (kq_ka comma_d) (ka_cons (kq_ka (sp_d hw' (k := s ++ (w1 ++ (chars "," ++ (w2 ++ (s' ++ (w ++ k)))))) (IsParam.starts h).ws))
      (ka_one (param_d (P := P) (inp := inp) h hw1 fin_comma)))
    have := ka_more h1 (ih hw2)
    simp only [List.nil_append, List.append_nil] at this
    exact this

theorem set_d {s ds w k} (h : IsSet s ds) (hw : Blank w) (hk : Fin k) (hc : Peg.Head (fun c => c ≠ 0x2C#8) k) :
    D (.name R.arg_set none) (s ++ (w ++ k)) k (Ka (encode ds)) := by
  refine ka_name rfl ?_
  cases h with
  | @one s d h =>
    have := ka_cons (param_d (P := P) (inp := inp) h hw hk) (ka_one (kq_ka (Does.stop (e := sequ [.name R.comma none, .name R.sp none, .name R.arg none]) (Miss.head (comma_miss hc)))))
    rw [encode_one]
    rwa [List.append_nil] at this
  | @more s d w1 w2 s' ds h hw1 hw2 hs =>
    have e0 : s ++ (w1 ++ (chars "," ++ (w2 ++ s'))) ++ (w ++ k) = s ++ (w1 ++ (chars "," ++ (w2 ++ (s' ++ (w ++ k))))) := by simp
    rw [e0, encode_cons]
    exact ka_cons (param_d (P := P) (inp := inp) h hw1 fin_comma) (ka_one (more_d hs hw hw2 hk hc))

/-- What may follow a list of parameters. -/
structure Stop (k : List Byte) : Prop where
  fin : Fin k
  dot : Peg.Head (fun c => c = 0x2E#8) k

theorem Stop.comma {k} (h : Stop k) : Peg.Head (fun c => c ≠ 0x2C#8) k := h.dot.mono (by decide +kernel)
theorem Stop.bar {k} (h : Stop k) : Peg.Head (fun c => c ≠ 0x7C#8) k := h.dot.mono (by decide +kernel)

theorem list_d {s ds w k} (h : IsList s ds) (hw : Blank w) (hk : Stop k) : D (.name R.arg_list none) (s ++ (w ++ k)) k (Ka (encode ds)) := by
  refine ka_name rfl ?_
  cases h with
  | set h =>
    have := ka_cons (set_d (P := P) (inp := inp) h hw hk.fin hk.comma) (ka_one (kq_ka (Does.none (e := sequ [.name R.optional none, .name R.arg_set none]) (Miss.head (optional_miss hk.bar)))))
    rw [List.append_nil] at this
    exact Does.alt this
  | @both s ds w1 w2 s' ds' h hw1 hw2 h' =>
    have e0 : s ++ (w1 ++ (chars "|" ++ (w2 ++ s'))) ++ (w ++ k) = s ++ (w1 ++ (chars "|" ++ (w2 ++ (s' ++ (w ++ k))))) := by simp
    rw [e0, encode_append, encode_cons]
    refine Does.alt (ka_cons (set_d h hw1 fin_bar (Peg.Head.cons (by decide))) (ka_one (Does.some ?_)))
    exact ka_cons (optional_d hw2 (IsSet.starts h').ws) (ka_one (set_d h' hw hk.fin hk.comma))
  | @optional w1 s ds hw1 h =>
    have e0 : chars "|" ++ (w1 ++ s) ++ (w ++ k) = chars "|" ++ (w1 ++ (s ++ (w ++ k))) := by simp
    rw [e0, encode_cons]
    refine Does.next (Miss.head (set_miss (Peg.Head.cons (.inr rfl)) ?_)) (Does.alt (ka_cons (optional_d hw1 (IsSet.starts h).ws) (ka_one (set_d h hw hk.fin hk.comma))))
    rintro ⟨t, e⟩
    exact absurd (List.cons.inj e).1 (by decide)

theorem dot_stop {w s i} (hw : Blank w) (hs : Starts s) : Stop (chars "." ++ (w ++ (s ++ i))) := by
  refine ⟨fin_dot ?_, Peg.Head.cons rfl⟩
  cases w with
  | nil =>
    obtain ⟨c, r, rfl, -, h⟩ := hs
    exact Peg.Head.cons h
  | cons c w =>
    have : ∀ c : Byte, c ∈ Spec.blanks → Spec.isDigitChar c = false := by decide +kernel
    exact Peg.Head.cons (this c (hw c (by simp)))

theorem lists_d {s ds w w' k} (h : IsArgs s ds) (hw : Blank w) (hw' : Blank w') (hk : Stop k) (hm : M (sequ [.name R.arg_sep none, .name R.arg_list none]) k) :
    D moreLists (chars "." ++ (w' ++ (s ++ (w ++ k)))) k (Ka (encode (.dot :: ds))) := by
  induction h generalizing w' with
  | @list s ds h =>
    have h1 := ka_cons (sep_d hw' (i := s ++ (w ++ k)) (IsList.starts h).ws) (ka_one (list_d (P := P) (inp := inp) h hw hk))
    have := ka_more h1 (kq_ka (Does.stop hm))
    rw [encode_cons]
    simp only [List.append_nil, List.append_assoc] at this
    exact this
  | @dot s ds w1 w2 s' ds' h hw1 hw2 hs ih =>
    have e0 : s ++ (w1 ++ (chars "." ++ (w2 ++ s'))) ++ (w ++ k) = s ++ (w1 ++ (chars "." ++ (w2 ++ (s' ++ (w ++ k))))) := by simp
    rw [e0, encode_cons, encode_append]
    have h1 := ka_cons (sep_d hw' (i := s ++ (w1 ++ (chars "." ++ (w2 ++ (s' ++ (w ++ k)))))) (IsList.starts h).ws)
      (ka_one (list_d (P := P) (inp := inp) h hw1 (dot_stop hw2 (IsArgs.starts hs))))
    have := ka_more h1 (ih hw2)
    simp only [List.append_nil, List.append_assoc] at this
    exact this

theorem args_d {s ds w k} (h : IsArgs s ds) (hw : Blank w) (hk : Stop k) (hm : M (sequ [.name R.arg_sep none, .name R.arg_list none]) k) :
    D (.name R.args none) (s ++ (w ++ k)) k (Ka (encode ds)) := by
  refine ka_name rfl ?_
  cases h with
  | @list s ds h =>
    have := ka_cons (list_d (P := P) (inp := inp) h hw hk) (ka_one (kq_ka (Does.stop hm)))
    rwa [List.append_nil] at this
  | @dot s ds w1 w2 s' ds' h hw1 hw2 hs =>
    have e0 : s ++ (w1 ++ (chars "." ++ (w2 ++ s'))) ++ (w ++ k) = s ++ (w1 ++ (chars "." ++ (w2 ++ (s' ++ (w ++ k))))) := by simp
    rw [e0, encode_append]
    exact ka_cons (list_d h hw1 (dot_stop hw2 (IsArgs.starts hs))) (ka_one (lists_d hs hw hw2 hk hm))

theorem eof_d : D (.name R.end_of_file none) [] [] Kq := by
  refine (Does.name (K := Kq) (A := fun y y' => y' = y) rfl ?_ fun _ _ _ _ h => h.2).mono fun _ _ _ _ h => ⟨h.1, h.2⟩
  intro r pos m hp hi
  refine ⟨pos, [], m, hp, hi, .notOk (.anyFail ?_), fun env envs y s' hx => ?_⟩
  · rw [← List.head?_drop, hi]; rfl
  · cases hx; exact ⟨env, y, rfl, rfl, rfl⟩

theorem stop_nil : Stop [] := ⟨.nil, Peg.Head.nil⟩
theorem end_miss : M (sequ [.name R.arg_sep none, .name R.arg_list none]) [] := Miss.head (sep_miss Peg.Head.nil)

/-- The calls of `args` of a signature. -/
theorem starts_d {s ds} (h : IsSig s ds) : ∃ i a b, D (.name R.args none) s i (Ka a) ∧ D (.star (.name R.args none)) i [] (Ka b) ∧ encode ds = a ++ b := by
  cases h with
  | @args s ds w h hw =>
    have h1 := args_d (P := P) (inp := inp) h hw stop_nil end_miss
    rw [List.append_nil] at h1
    exact ⟨_, _, [], h1, kq_ka (Does.stop args_miss), by simp⟩
  | @rest s ds w w' h hw hw' =>
    have hs : Stop (chars "..." ++ w') := ⟨fin_dot (i := chars ".." ++ w') (Peg.Head.cons (by decide)), Peg.Head.cons rfl⟩
    have hm : M (sequ [.name R.arg_sep none, .name R.arg_list none]) (chars "..." ++ w') := by
      have h1 : D (.name R.arg_sep none) (chars "." ++ ([] ++ (chars ".." ++ w'))) (chars ".." ++ w') (Ka [.num 46]) :=
        sep_d (by intro c h; cases h) (Peg.Head.cons (by decide))
      refine Miss.tail h1 (Miss.head (list_miss (Peg.Head.cons rfl) ?_))
      rintro ⟨t, e⟩
      have e := (List.cons.inj (List.cons.inj e).2).2
      cases w' with
      | nil => cases e
      | cons c w =>
        have := hw' c (by simp)
        have e := (List.cons.inj e).1
        rw [← e] at this
        exact absurd this (by decide)
    have h1 := args_d (P := P) (inp := inp) h hw hs hm
    have h2 := args_d (P := P) (inp := inp) (.list (.set (.one .rest))) hw' stop_nil end_miss
    rw [List.append_nil] at h2
    have h3 := ka_more h2 (kq_ka (Does.stop args_miss))
    rw [List.append_nil] at h3
    exact ⟨_, _, _, h1, h3, encode_append ..⟩

theorem plus_d {i a} (h : D (.plus (.name R.args none)) i [] (Ka a)) : D (sequ [.plus (.name R.args none), .name R.end_of_file none]) i [] (Ka a) := by
  have := ka_cons h (ka_one (kq_ka eof_d))
  rwa [List.append_nil] at this

theorem sig_d {s ds} (h : IsSig s ds) : D (sequ [.plus (.name R.args none), .name R.end_of_file none]) s [] (Ka (encode ds)) := by
  obtain ⟨i, a, b, h1, h2, e⟩ := starts_d (P := P) (inp := inp) h
  rw [e]
  exact plus_d (ka_plus h1 h2)

/-- A type letter ends its parameter, whatever follows. -/
theorem typed_sig_d {x c s ds} (hx : ParamName x) (hc : c ∈ typeLetters) (h : IsSig s ds) (hs : Peg.Head (fun c => Spec.isLetter c = true) s) :
    D (sequ [.plus (.name R.args none), .name R.end_of_file none]) (x ++ (chars "=" ++ (c :: s))) [] (Ka (encode (.param x (.typed c.toNat) :: ds))) := by
  obtain ⟨i, a, b, h1, h2, e⟩ := starts_d (P := P) (inp := inp) h
  have nomod : M (.name R.arg_modifier (some 3)) (x ++ (chars "=" ++ (c :: s))) := by
    obtain ⟨c, r, rfl, hc, -⟩ := hx
    exact modifier_miss (Peg.Head.cons (letter_byte c hc).2.1)
  have hw : Blank [] := by intro c h; cases h
  have d1 : D (.name R.arg_name (some 2)) (x ++ ([] ++ (chars "=" ++ (c :: s)))) (chars "=" ++ (c :: s)) (Kv (some 2) (.str x)) :=
    name_d hx hw (Peg.Head.cons (by decide +kernel)) (Peg.Head.cons (by decide +kernel))
  have d2 : D (.name R.assign none) (chars "=" ++ ([] ++ (c :: s))) (c :: s) Kq := assign_d .nil (Peg.Head.cons (type_byte c hc))
  have d3 : D (.name R.arg_type (some 1)) (c :: ([] ++ s)) s (Kv (some 1) (.imm (pnNum c.toNat))) :=
    type_d hc hw (hs.mono fun c hc => ⟨(letter_byte c hc).1.1, (letter_byte c hc).1.2.2⟩)
  have d4 : D (.name R.arg none) (x ++ (chars "=" ++ (c :: s))) s (Ka (Decl.items (.param x (.typed c.toNat)))) := by
    refine (Does.name (K := fun _ y _ y' => Adds (Decl.items (.param x (.typed c.toNat))) y y') (A := Adds (Decl.items (.param x (.typed c.toNat)))) rfl ?_ fun _ _ _ _ h => h).mono fun env y env' y' h => h
    refine Does.next (Miss.head nomod) (Does.next (Miss.head nomod) (Does.alt ((Does.cons d1 (Does.cons d2 (Does.cons d3 (Does.cons .act .nil)))).mono ?_)))
    rintro env y env' y' ⟨_, _, ⟨rfl, e1, e2, e3⟩, _, y1, ⟨rfl, rfl⟩, _, y2, ⟨rfl, e4, e5, e6⟩, _, _, ⟨t, e⟩, rfl, rfl⟩
    have := push_adds (l := [y1.1, y2.1]) e rfl
    rw [e1, e4] at this
    simp only [List.map_cons, List.map_nil, byte_num] at this
    exact this.pre (e5.trans e2) (e6.trans e3)
  have ne : ∀ d : Byte, (∀ c : Byte, Spec.isLetter c = true → c ≠ d) → Peg.Head (fun c => c ≠ d) s := fun d h => hs.mono h
  have d5 : D (.name R.args none) (x ++ (chars "=" ++ (c :: s))) s (Ka (Decl.items (.param x (.typed c.toNat)))) := by
    have s1 := ka_cons d4 (ka_one (kq_ka (Does.stop (e := sequ [.name R.comma none, .name R.sp none, .name R.arg none]) (Miss.head (comma_miss (ne _ (by decide +kernel)))))))
    have s2 := ka_cons (ka_name (r := R.arg_set) rfl s1) (ka_one (kq_ka (Does.none (e := sequ [.name R.optional none, .name R.arg_set none]) (Miss.head (optional_miss (ne _ (by decide +kernel)))))))
    have s3 := ka_cons (ka_name (r := R.arg_list) rfl (Does.alt s2)) (ka_one (kq_ka (Does.stop (e := sequ [.name R.arg_sep none, .name R.arg_list none]) (Miss.head (sep_miss (ne _ (by decide +kernel)))))))
    simp only [List.append_nil] at s3
    exact ka_name (r := R.args) rfl s3
  rw [encode_cons, e]
  exact plus_d (ka_plus d5 (ka_more h1 h2))

/-! ### Texts that are no signatures -/

theorem sig_miss {i} (h : Peg.Head (fun c => Peg.mayStart Peg.nulls Peg.firsts c Peg.utff = false ∧ c ∉ modifiers ∧ c ≠ 0x7C#8 ∧ c ≠ 0x2E#8) i) :
    M (sequ [.plus (.name R.args none), .name R.end_of_file none]) i := by
  have n1 : ∀ {v}, M (.name R.arg_name v) i := arg_name_miss (name_fail (h.mono fun c h => h.1))
  have n2 : ∀ {v}, M (.name R.arg_modifier v) i := modifier_miss (h.mono fun c h => h.2.1)
  have n3 : M (.name R.arg none) i := by
    refine Miss.name rfl (Miss.alt (Miss.head n2) (Miss.alt (Miss.head n2) (Miss.alt (Miss.head n1) (Miss.alt (Miss.head n1) (Miss.alt (Miss.head n1) (Miss.alt1
      (Miss.name rfl (Miss.head ?_))))))))
    intro r pos m hp hi
    refine ⟨m, .strFail ?_⟩
    rw [hi]
    rintro ⟨t, e⟩
    exact (h _ _ e.symm).2.2.2 rfl
  have n4 : M (.name R.args none) i := Miss.name rfl (Miss.head (Miss.name rfl (Miss.alt (Miss.head (Miss.name rfl (Miss.head n3))) (Miss.alt1 (Miss.head (optional_miss (h.mono fun c h => h.2.2.1)))))))
  refine Miss.head ?_
  intro r pos m hp hi
  obtain ⟨m', h⟩ := n4 r pos m hp hi
  exact ⟨m', .plusFail h⟩

theorem runAct_failed : ∀ a t env y, y.2.failed = true → (runAct a t env y).2.2.failed = true := by
  intro a t env y h
  unfold runAct
  split <;> first | exact h | (rw [escWrite.eq_def]; split <;> first | exact h | rfl)

theorem sigAct_failed {a t env y} (h : y.2.failed = true) : (sigAct a t env y).2.2.failed = true := by
  unfold sigAct
  split
  · rfl
  · exact runAct_failed a t env y h

/-- The process does not come back to life, -/
theorem runs_failed {A : Nat → List Byte → Env → Val → Env × Val} (hA : ∀ a t env y, y.2.failed = true → (A a t env y).2.2.failed = true) {evs s s'} (h : Runs A inp evs s s') :
    s.2.2.failed = true → s'.2.2.failed = true := by
  induction h with
  | nil => exact id
  | enter _ ih => exact ih
  | leave _ ih => exact ih
  | set _ ih => exact ih
  | act _ _ ih => exact fun h => ih (hA _ _ _ _ h)

/-- after an action that ended it. -/
theorem runs_fails {A : Nat → List Byte → Env → Val → Env × Val} (hA : ∀ a t env y, y.2.failed = true → (A a t env y).2.2.failed = true) {evs s s'} (h : Runs A inp evs s s')
    {r a b e} (hm : Ev.act r a b e ∈ evs) (ha : ∀ t env y, (e ≠ 0 → t = slice inp b e) → (A a t env y).2.2.failed = true) : s'.2.2.failed = true := by
  induction h with
  | nil => cases hm
  | enter _ ih => exact ih ((List.mem_cons.1 hm).resolve_left nofun)
  | leave _ ih => exact ih ((List.mem_cons.1 hm).resolve_left nofun)
  | set _ ih => exact ih ((List.mem_cons.1 hm).resolve_left nofun)
  | act ht hx ih =>
    rcases List.mem_cons.1 hm with h | h
    · cases h
      exact runs_failed hA hx (ha _ _ _ ht)
    · exact ih h

variable (P inp) in
/-- `e` reads from `i` to `j`, and calls for the action that begins a string. -/
def Has (e : Exp) (i j : List Byte) : Prop := ∀ r pos m, pos ≤ inp.length → inp.drop pos = i →
  ∃ p evs m', p ≤ inp.length ∧ inp.drop p = j ∧ Ev' r e pos m (.ok p evs m') ∧ ∃ r a b e, (a = 101 ∨ a = 114) ∧ Ev.act r a b e ∈ evs

theorem Has.alt {e l i j} (h : Has P inp e i j) : Has P inp (.alt (.cons e l)) i j := by
  intro r pos m hp hi
  obtain ⟨p, evs, m', h1, h2, h3, h4⟩ := h r pos m hp hi
  exact ⟨p, evs, m', h1, h2, .altOk h3, h4⟩

theorem Has.next {e e' l i j} (h0 : M e i) (h : Has P inp (.alt (.cons e' l)) i j) : Has P inp (.alt (.cons e (.cons e' l))) i j := by
  intro r pos m hp hi
  obtain ⟨m0, h0⟩ := h0 r pos m hp hi
  obtain ⟨p, evs, m', h1, h2, h3, h4⟩ := h r pos m0 hp hi
  exact ⟨p, evs, m', h1, h2, .altNext h0 h3, h4⟩

theorem Has.name {r v i j} {ru : Rule} (hr : potionGrammar[r]? = some ru) (h : Has P inp ru.body i j) : Has P inp (.name r v) i j := by
  intro r' pos m hp hi
  obtain ⟨p, evs, m', h1, h2, h3, r1, a, b, e, ha, h4⟩ := h r pos m hp hi
  refine ⟨p, _, m', h1, h2, .nameOk hr h3, r1, a, b, e, ha, ?_⟩
  rw [List.cons_append]
  exact List.mem_cons_of_mem _ (List.mem_append_left _ h4)

theorem Has.left {e l i j k K} (h : Has P inp e i j) (h' : D (.seq l) j k K) : Has P inp (.seq (.cons e l)) i k := by
  intro r pos m hp hi
  obtain ⟨p, evs, m', h1, h2, h3, r1, a, b, e, ha, h4⟩ := h r pos m hp hi
  obtain ⟨p', evs', m'', h5, h6, h7, -⟩ := h' r p m' h1 h2
  exact ⟨p', _, m'', h5, h6, .seqOk h3 h7, r1, a, b, e, ha, List.mem_append_left _ h4⟩

theorem Has.right {e l i j k K} (h : D e i j K) (h' : Has P inp (.seq l) j k) : Has P inp (.seq (.cons e l)) i k := by
  intro r pos m hp hi
  obtain ⟨p, evs, m', h1, h2, h3, -⟩ := h r pos m hp hi
  obtain ⟨p', evs', m'', h5, h6, h7, r1, a, b, e, ha, h4⟩ := h' r p m' h1 h2
  exact ⟨p', _, m'', h5, h6, .seqOk h3 h7, r1, a, b, e, ha, List.mem_append_right _ h4⟩

theorem Has.plus {e i j k K} (h : Has P inp e i j) (h' : D (.star e) j k K) : Has P inp (.plus e) i k := by
  intro r pos m hp hi
  obtain ⟨p, evs, m', h1, h2, h3, r1, a, b, e, ha, h4⟩ := h r pos m hp hi
  obtain ⟨p', evs', m'', h5, h6, h7, -⟩ := h' r p m' h1 h2
  exact ⟨p', _, m'', h5, h6, .plusOk h3 h7, r1, a, b, e, ha, List.mem_append_left _ h4⟩

theorem str_has {v t x k} (h : Spec.Single t x) (hk : Peg.Head (fun c => Peg.contChar c = false) k) :
    Has P inp (.name R.str1 v) (0x27#8 :: (t ++ 0x27#8 :: k)) k := by
  intro r pos m hp hi
  obtain ⟨p, evs, m', f, h1, h2, h3, -⟩ := ok_of (P := P) (v := v) S.str1 (Peg.str1_ok h hk) (by decide +kernel) (r' := r) (m := m) hp hi
  refine ⟨p, evs, m', h1, h2, h3, ?_⟩
  generalize hn : Exp.name R.str1 v = e at h3
  cases h3 with
  | nameOk hr h4 =>
    cases hn
    cases hr
    cases h4 with
    | seqOk ha hb =>
      cases hb with
      | seqOk hc hd =>
        cases hc
        exact ⟨_, 101, _, _, .inl rfl, by rw [List.cons_append]; exact List.mem_cons_of_mem _ (List.mem_append_left _ (List.mem_append_right _ (List.mem_cons_self ..)))⟩
  | _ => cases hn

theorem str2_has {v t x k} (h : Spec.Double t x) : Has P inp (.name R.str2 v) (0x22#8 :: (t ++ 0x22#8 :: k)) k := by
  intro r pos m hp hi
  obtain ⟨p, evs, m', f, h1, h2, h3, -⟩ := ok_of (P := P) (v := v) S.str2 (Peg.str2_ok h k) (by decide +kernel) (r' := r) (m := m) hp hi
  refine ⟨p, evs, m', h1, h2, h3, ?_⟩
  generalize hn : Exp.name R.str2 v = e at h3
  cases h3 with
  | nameOk hr h4 =>
    cases hn
    cases hr
    cases h4 with
    | seqOk ha hb =>
      cases hb with
      | seqOk hc hd =>
        cases hc
        exact ⟨_, 114, _, _, .inr rfl, by rw [List.cons_append]; exact List.mem_cons_of_mem _ (List.mem_append_left _ (List.mem_append_right _ (List.mem_cons_self ..)))⟩
  | _ => cases hn

/-- A literal that is a string. -/
theorem string_has {s x} (h : Spec.IsString s x) : Has P inp (.name R.immed (some 1)) s [] := by
  cases h with
  | @single t x h =>
    have fl : ∀ q, Peg.starOk Peg.nulls q = true → Peg.nullable Peg.nulls q = false → Peg.mayStart Peg.nulls Peg.firsts 0x27#8 q = false → Peg.G q (0x27#8 :: (t ++ [0x27#8])) none :=
      fun q h1 h2 h3 => Peg.fails_first _ h1 h2 h3
    refine Has.name rfl (Has.next (Miss.head (miss_of S.nil (fl _ (by decide) (by decide) (by decide)))) (Has.next (Miss.head (miss_of S.true (fl _ (by decide) (by decide) (by decide))))
      (Has.next (Miss.head (miss_of S.false (fl _ (by decide) (by decide) (by decide)))) (Has.next (Miss.head (miss_of S.hexP (fl _ (by decide) (by decide) (by decide))))
      (Has.next (Miss.head (miss_of S.dec (fl _ (by decide) (by decide) (by decide)))) (Has.alt (str_has h Peg.Head.nil)))))))
  | @double t x h =>
    have fl : ∀ q, Peg.starOk Peg.nulls q = true → Peg.nullable Peg.nulls q = false → Peg.mayStart Peg.nulls Peg.firsts 0x22#8 q = false → Peg.G q (0x22#8 :: (t ++ [0x22#8])) none :=
      fun q h1 h2 h3 => Peg.fails_first _ h1 h2 h3
    refine Has.name rfl (Has.next (Miss.head (miss_of S.nil (fl _ (by decide) (by decide) (by decide)))) (Has.next (Miss.head (miss_of S.true (fl _ (by decide) (by decide) (by decide))))
      (Has.next (Miss.head (miss_of S.false (fl _ (by decide) (by decide) (by decide)))) (Has.next (Miss.head (miss_of S.hexP (fl _ (by decide) (by decide) (by decide))))
      (Has.next (Miss.head (miss_of S.dec (fl _ (by decide) (by decide) (by decide)))) (Has.next (miss_of S.str1 (fl _ (by decide) (by decide) (by decide))) (Has.alt (str2_has h))))))))

/-- A default that is a string. -/
theorem strdef_has {x s y} (hx : ParamName x) (hs : Spec.IsString s y) :
    Has P inp (sequ [.plus (.name R.args none), .name R.end_of_file none]) (x ++ (chars ":=" ++ s)) [] := by
  have nomod : M (.name R.arg_modifier (some 3)) (x ++ (chars ":=" ++ s)) := by
    obtain ⟨c, r, rfl, hc, -⟩ := hx
    exact modifier_miss (Peg.Head.cons (letter_byte c hc).2.1)
  have hw : Blank [] := by intro c h; cases h
  have d1 : D (.name R.arg_name (some 2)) (x ++ ([] ++ (chars ":=" ++ s))) (chars ":=" ++ s) (Kv (some 2) (.str x)) :=
    name_d hx hw (Peg.Head.cons (by decide +kernel)) (Peg.Head.cons (by decide +kernel))
  have d2 : D (.name R.defassign none) (chars ":=" ++ ([] ++ s)) s Kq := by
    refine defassign_d .nil ?_
    cases hs <;> exact Peg.Head.cons (by decide +kernel)
  have as : M (.name R.assign none) (chars ":=" ++ s) := assign_miss (Peg.Head.cons (by decide +kernel))
  have d3 : Has P inp (.name R.immed (some 1)) s [] := string_has hs
  have sp0 : D (.name R.sp none) ([] ++ []) [] Kq := sp_d hw Peg.Head.nil
  have d4 : Has P inp (.name R.value_ (some 0)) s [] :=
    Has.name rfl (Has.alt (Has.left d3 (Does.cons sp0 (Does.cons .act .nil))))
  have d5 : Has P inp (.name R.arg none) (x ++ (chars ":=" ++ s)) [] :=
    Has.name rfl (Has.next (Miss.head nomod) (Has.next (Miss.head nomod) (Has.next (Miss.tail d1 (Miss.head as)) (Has.alt (Has.right d1 (Has.right d2 (Has.left d4 (Does.cons .act .nil))))))))
  have d6 : Has P inp (.name R.args none) (x ++ (chars ":=" ++ s)) [] :=
    Has.name rfl (Has.left (Has.name rfl (Has.alt (Has.left (Has.name rfl (Has.left d5 (ka_one (kq_ka (Does.stop (Miss.head (comma_miss Peg.Head.nil)))))))
      (ka_one (kq_ka (Does.none (Miss.head (optional_miss Peg.Head.nil)))))))) (ka_one (kq_ka (Does.stop end_miss))))
  exact Has.left (Has.plus d6 (Does.stop args_miss)) (ka_one (kq_ka eof_d))

end

theorem sig_local (r : Nat) (ru : Rule) (h : potionGrammar[r]? = some ru) (a : Nat) (ha : a ∈ ru.body.acts) : Local sigAct ru.nvars a := by
  intro t env env' y he
  unfold sigAct
  split
  · exact ⟨he, rfl⟩
  · exact potion_local r ru h a ha t env env' y he

end Potion.Greg
