import Verif.Model.Cli
import Verif.Spec.Cli
/-! The loop over the options, for C73. -/
namespace Potion.Cli
open Potion Potion.Spec.Cli

theorem lit_ascii (s : String) : lit s = ascii s := rfl

theorem splitEq_none {n : List Byte} (h : 0x3D#8 ∉ n) : splitEq n = (n, none) := by
  have : n.dropWhile (· ≠ 0x3D#8) = [] := by
    have := List.dropWhile_append_of_pos (p := fun x => decide (x ≠ 0x3D#8)) (l₁ := n) (l₂ := []) (fun x hx => by
      have : x ≠ 0x3D#8 := fun e => h (e ▸ hx)
      simpa using this)
    simpa using this
  unfold splitEq
  rw [this]

theorem splitEq_some {n a : List Byte} (h : 0x3D#8 ∉ n) : splitEq (n ++ 0x3D#8 :: a) = (n, some a) := by
  have h1 : ∀ x ∈ n, decide (x ≠ 0x3D#8) = true := fun x hx => by
    have : x ≠ 0x3D#8 := fun e => h (e ▸ hx)
    simpa using this
  have : (n ++ 0x3D#8 :: a).dropWhile (· ≠ 0x3D#8) = 0x3D#8 :: a := by
    rw [List.dropWhile_append_of_pos h1]; simp
  unfold splitEq
  rw [this]
  dsimp only
  rw [List.takeWhile_append_of_pos h1]
  simp

theorem addmodule_eq (p : Option (List Byte)) {n : List Byte} (h : 0x3D#8 ∉ n) (a : Option (List Byte)) :
    addmodule p (withArgs n a) = loading ((match p with | some p => p ++ ascii "/" | none => []) ++ n) n a := by
  have hs : splitEq (withArgs n a) = (n, a) := by
    cases a with
    | none => exact splitEq_none h
    | some a =>
      have : withArgs n (some a) = n ++ 0x3D#8 :: a := by
        show n ++ ascii "=" ++ a = _
        have : ascii "=" = [0x3D#8] := by decide
        rw [this]; simp
      rw [this, splitEq_some h]
  have e1 : lit "()\n" = ascii "(" ++ ascii ")\n" := by decide
  unfold addmodule loading
  rw [hs]
  cases p <;> cases a <;> simp [e1, lit_ascii]

/-- What an option does to the state. -/
def after (s : State) (o : Opt) : State :=
  { flags := (if o.isInspect then s.flags ||| debugInspect else if o.isVerbose then s.flags ||| debugVerbose else s.flags)
    exec := (o.mode.map Mode.number).getD s.exec
    buf := (o.code?.map fun t => s.addmodules.getD [] ++ t).or s.buf
    compile := o.target.getD s.compile
    addmodules := o.modules.or s.addmodules
    dirs := s.dirs ++ o.dirs.toList
    unknown := s.unknown ++ o.unknown?.toList }

theorem lits : lit "--" = [0x2D#8, 0x2D#8] ∧ lit "-I" = [0x2D#8, 0x49#8] ∧ lit "-L" = [0x2D#8, 0x4C#8] ∧ lit "-V" = [0x2D#8, 0x56#8] ∧
    lit "-v" = [0x2D#8, 0x76#8] ∧ lit "-h" = [0x2D#8, 0x68#8] ∧ lit "-s" = [0x2D#8, 0x73#8] ∧ lit "-c" = [0x2D#8, 0x63#8] ∧
    lit "-B" = [0x2D#8, 0x42#8] ∧ lit "-X" = [0x2D#8, 0x58#8] ∧ lit "-d" = [0x2D#8, 0x64#8] ∧ lit "-M" = [0x2D#8, 0x4D#8] ∧ lit "-e" = [0x2D#8, 0x65#8] := by
  decide
theorem longs : lit "--inspect" = 0x2D#8 :: 0x2D#8 :: lit "inspect" ∧ lit "--verbose" = 0x2D#8 :: 0x2D#8 :: lit "verbose" ∧
    lit "--version" = 0x2D#8 :: 0x2D#8 :: lit "version" ∧ lit "--help" = 0x2D#8 :: 0x2D#8 :: lit "help" ∧
    lit "--stats" = 0x2D#8 :: 0x2D#8 :: lit "stats" ∧ lit "--check" = 0x2D#8 :: 0x2D#8 :: lit "check" ∧
    lit "--compile=" = 0x2D#8 :: 0x2D#8 :: lit "compile=" ∧ lit "--compile" = 0x2D#8 :: 0x2D#8 :: lit "compile" ∧
    lit "--bytecode" = 0x2D#8 :: 0x2D#8 :: lit "bytecode" ∧ lit "--x86" = 0x2D#8 :: 0x2D#8 :: lit "x86" ∧
    lit "--debug" = 0x2D#8 :: 0x2D#8 :: lit "debug" ∧ lit "--debug=" = 0x2D#8 :: 0x2D#8 :: lit "debug=" := by
  decide

theorem scan_cons (s : State) (a : Arg) (as : List Arg) : scan s (a :: as) =
    if a = lit "--" then .rest s as
    else if a = lit "-I" ∨ a = lit "--inspect" then scan { s with flags := s.flags ||| debugInspect } as
    else if a = lit "-L" then
      match as with
      | [] => .crash
      | d :: as => scan { s with dirs := s.dirs ++ [d] } as
    else if a = lit "-V" ∨ a = lit "--verbose" then scan { s with flags := s.flags ||| debugVerbose } as
    else if a = lit "-v" ∨ a = lit "--version" then .done (lit "version")
    else if a = lit "-h" ∨ a = lit "--help" then .done (lit "help")
    else if a = lit "-s" ∨ a = lit "--stats" then .done (lit "stats")
    else if a = lit "--check" then scan { s with exec := execCheck } as
    else if a.take 10 = lit "--compile=" then scan { s with exec := execCompile, compile := some (a.drop 10) } as
    else if a = lit "--compile" ∨ a = lit "-c" then scan { s with exec := execCompile, compile := none } as
    else if a = lit "-B" ∨ a = lit "--bytecode" then scan { s with exec := execVm } as
    else if a = lit "-X" ∨ a = lit "--x86" then scan { s with exec := execJit } as
    else if a = lit "--debug" ∨ a = lit "-d" then scan { s with addmodules := some (addmodule none (lit "debug")), exec := execDebug } as
    else if a = lit "--debug=" then .crash
    else if a.take 2 = lit "-d" then
      if (a.drop 2).head? = some 0x3D#8 then scan { s with addmodules := some (addmodule none (lit "debug=" ++ a.drop 3)), exec := execDebug } as
      else scan { s with addmodules := some (addmodule (some (lit "debug")) (a.drop 2)), exec := execDebug } as
    else if a.take 2 = lit "-M" then scan { s with addmodules := some (addmodule none (a.drop 2)) } as
    else if a.head? = some 0x2D#8 then
      if (a.drop 1).head? = some 0x65#8 then
        match (if a.length = 2 then as.head? else some (a.drop 2)) with
        | none => .crash
        | some arg => scan { s with buf := some (s.addmodules.getD [] ++ arg) } as
      else scan { s with unknown := s.unknown ++ [a] } as
    else .rest s (a :: as) := by
  rw [scan.eq_def]
  cases as <;> rfl

/-- An argument that starts with a dash and another letter than a dash. -/
theorem scan_short (s : State) (c : Byte) (t : List Byte) (as : List Arg) (hc : c ≠ 0x2D#8) (ht : t = [] → c ≠ 0x49#8 ∧ c ≠ 0x4C#8 ∧ c ≠ 0x56#8 ∧
    c ≠ 0x76#8 ∧ c ≠ 0x68#8 ∧ c ≠ 0x73#8 ∧ c ≠ 0x63#8 ∧ c ≠ 0x42#8 ∧ c ≠ 0x58#8 ∧ c ≠ 0x64#8) :
    scan s ((0x2D#8 :: c :: t) :: as) =
    (if c = 0x64#8 then
      if t.head? = some 0x3D#8 then scan { s with addmodules := some (addmodule none (lit "debug=" ++ t.drop 1)), exec := execDebug } as
      else scan { s with addmodules := some (addmodule (some (lit "debug")) t), exec := execDebug } as
    else if c = 0x4D#8 then scan { s with addmodules := some (addmodule none t) } as
    else if c = 0x65#8 then
        match (if t = [] then as.head? else some t) with
        | none => .crash
        | some arg => scan { s with buf := some (s.addmodules.getD [] ++ arg) } as
    else scan { s with unknown := s.unknown ++ [0x2D#8 :: c :: t] } as) := by
  obtain ⟨a1, a2, a3, a4, a5, a6, a7, a8, a9, a10, a11, a12, a13⟩ := lits
  obtain ⟨b1, b2, b3, b4, b5, b6, b7, b8, b9, b10, b11, b12⟩ := longs
  have k : ∀ x : Byte, (c = x → x ≠ 0x49#8 ∧ x ≠ 0x4C#8 ∧ x ≠ 0x56#8 ∧ x ≠ 0x76#8 ∧ x ≠ 0x68#8 ∧ x ≠ 0x73#8 ∧ x ≠ 0x63#8 ∧ x ≠ 0x42#8 ∧ x ≠ 0x58#8 ∧ x ≠ 0x64#8) ∨ t ≠ [] := by
    intro x
    by_cases h : t = []
    · exact .inl fun e => e ▸ ht h
    · exact .inr h
  rw [scan_cons]
  simp only [a1, a2, a3, a4, a5, a6, a7, a8, a9, a10, a11, a12, b1, b2, b3, b4, b5, b6, b7, b8, b9, b10, b11, b12]
  have e10 : (0x2D#8 :: c :: t).take 10 ≠ 0x2D#8 :: 0x2D#8 :: lit "compile=" := by
    intro h; simp only [List.take_succ_cons] at h; exact hc (by injection h with _ h; injection h)
  have e2 : (0x2D#8 :: c :: t).take 2 = [0x2D#8, c] := by simp
  rw [if_neg (by simpa using fun e => absurd e hc)]
  by_cases h : t = []
  · obtain ⟨h1, h2, h3, h4, h5, h6, h7, h8, h9, h10⟩ := ht h
    subst h
    simp only [e10, e2, List.cons.injEq, true_and, hc, h1, h2, h3, h4, h5, h6, h7, h8, h9, h10, false_and, or_false, if_false, List.drop, List.head?, and_true]
    simp
  · simp only [e10, e2, List.cons.injEq, true_and, hc, h, and_false, false_and, or_false, if_false, and_true]
    simp [h]

local macro "known" : tactic =>
  `(tactic| (rw [scan_cons]; (repeat rw [if_neg (by decide)]); rw [if_pos (by decide)]; simp [after, Opt.isInspect, Opt.isVerbose, Opt.mode, Opt.code?, Opt.target,
    Opt.modules, Opt.dirs, Opt.unknown?, Mode.number, execVm, execJit, execDebug, execCheck, execCompile]))

theorem scan_opt (s : State) (o : Opt) (h : o.Ok) (as : List Arg) : scan s (o.words ++ as) = scan (after s o) as := by
  obtain ⟨a1, a2, a3, a4, a5, a6, a7, a8, a9, a10, a11, a12, a13⟩ := lits
  obtain ⟨b1, b2, b3, b4, b5, b6, b7, b8, b9, b10, b11, b12⟩ := longs
  have d0 : ascii "debug" = withArgs (ascii "debug") none := rfl
  have d1 : 0x3D#8 ∉ ascii "debug" := by decide
  cases o with
  | inspect l => cases l <;> (show scan s (ascii _ :: as) = _; known)
  | verbose l => cases l <;> (show scan s (ascii _ :: as) = _; known)
  | dir d => show scan s (ascii _ :: d :: as) = _; known
  | check => show scan s (ascii _ :: as) = _; known
  | compile l => cases l <;> (show scan s (ascii _ :: as) = _; known)
  | bytecode l => cases l <;> (show scan s (ascii _ :: as) = _; known)
  | x86 l => cases l <;> (show scan s (ascii _ :: as) = _; known)
  | debug l =>
    have e : addmodule none (lit "debug") = loading (ascii "debug") (ascii "debug") none := by
      have := addmodule_eq none d1 none
      rw [← d0] at this
      exact this
    cases l <;> (show scan s (ascii _ :: as) = _; known; rw [e])
  | compileTo t =>
    show scan s ((ascii "--compile=" ++ t) :: as) = _
    have e : ascii "--compile=" = [0x2D#8, 0x2D#8, 0x63#8, 0x6F#8, 0x6D#8, 0x70#8, 0x69#8, 0x6C#8, 0x65#8, 0x3D#8] := by decide
    rw [scan_cons]
    have hl : lit "--compile=" = ascii "--compile=" := rfl
    have ht : (ascii "--compile=" ++ t).take 10 = lit "--compile=" := by rw [hl, e]; simp
    have hd : (ascii "--compile=" ++ t).drop 10 = t := by rw [e]; simp
    have ne : ∀ w : List Byte, w.take 10 ≠ ascii "--compile=" → ascii "--compile=" ++ t ≠ w := fun w hw he => hw (he ▸ ht)
    rw [if_neg (ne _ (by decide)), if_neg (not_or.2 ⟨ne _ (by decide), ne _ (by decide)⟩), if_neg (ne _ (by decide)),
      if_neg (not_or.2 ⟨ne _ (by decide), ne _ (by decide)⟩), if_neg (not_or.2 ⟨ne _ (by decide), ne _ (by decide)⟩),
      if_neg (not_or.2 ⟨ne _ (by decide), ne _ (by decide)⟩), if_neg (not_or.2 ⟨ne _ (by decide), ne _ (by decide)⟩),
      if_neg (ne _ (by decide)), if_pos ht, hd]
    simp [after, Opt.isInspect, Opt.isVerbose, Opt.mode, Opt.code?, Opt.target, Opt.modules, Opt.dirs, Opt.unknown?, Mode.number, execVm, execJit, execDebug, execCheck, execCompile]
  | debugArgs a =>
    have e : ascii "-d=" ++ a = 0x2D#8 :: 0x64#8 :: 0x3D#8 :: a := rfl
    show scan s ((ascii "-d=" ++ a) :: as) = _
    rw [e, scan_short s 0x64#8 (0x3D#8 :: a) as (by decide) (fun e => by cases e), if_pos rfl, if_pos (by simp)]
    have := addmodule_eq none d1 (some a)
    have e2 : withArgs (ascii "debug") (some a) = lit "debug=" ++ a := rfl
    rw [e2] at this
    rw [List.drop_one, List.tail_cons, this]
    simp [after, Opt.isInspect, Opt.isVerbose, Opt.mode, Opt.code?, Opt.target, Opt.modules, Opt.dirs, Opt.unknown?, Mode.number, execVm, execJit, execDebug, execCheck, execCompile]
  | debugModule n a =>
    have e : ascii "-d" ++ withArgs n a = 0x2D#8 :: 0x64#8 :: withArgs n a := rfl
    show scan s ((ascii "-d" ++ withArgs n a) :: as) = _
    have hh : (withArgs n a).head? ≠ some 0x3D#8 ∧ withArgs n a ≠ [] := by
      obtain ⟨h1, h2⟩ := h
      cases n with
      | nil => exact absurd rfl h1
      | cons x n =>
        have : x ≠ 0x3D#8 := fun e => h2 (by rw [e]; exact List.mem_cons_self)
        cases a <;> simp [withArgs, this]
    rw [e, scan_short _ _ _ _ (by decide) (fun e => absurd e hh.2), if_pos rfl, if_neg hh.1]
    have := addmodule_eq (some (lit "debug")) h.2 a
    have e3 : lit "debug" ++ ascii "/" = ascii "debug/" := by decide
    dsimp only at this
    rw [e3] at this
    rw [this]
    simp [after, Opt.isInspect, Opt.isVerbose, Opt.mode, Opt.code?, Opt.target, Opt.modules, Opt.dirs, Opt.unknown?, Mode.number, execVm, execJit, execDebug, execCheck, execCompile]
  | load n a =>
    have e : ascii "-M" ++ withArgs n a = 0x2D#8 :: 0x4D#8 :: withArgs n a := rfl
    show scan s ((ascii "-M" ++ withArgs n a) :: as) = _
    rw [e, scan_short _ _ _ _ (by decide) (fun _ => by decide), if_neg (by decide), if_pos rfl, addmodule_eq none h a]
    simp [after, Opt.isInspect, Opt.isVerbose, Opt.mode, Opt.code?, Opt.target, Opt.modules, Opt.dirs, Opt.unknown?]
  | code t =>
    have e : ascii "-e" ++ t = 0x2D#8 :: 0x65#8 :: t := rfl
    show scan s ((ascii "-e" ++ t) :: as) = _
    rw [e, scan_short _ _ _ _ (by decide) (fun _ => by decide), if_neg (by decide), if_neg (by decide), if_pos rfl, if_neg h]
    simp [after, Opt.isInspect, Opt.isVerbose, Opt.mode, Opt.code?, Opt.target, Opt.modules, Opt.dirs, Opt.unknown?]
  | unknown w =>
    obtain ⟨h1, h2, h3⟩ := h
    show scan s (w :: as) = _
    have n : ∀ o ∈ ["--", "-I", "--inspect", "-L", "-V", "--verbose", "-v", "--version", "-h", "--help", "-s", "--stats", "--check", "--compile", "-c",
      "-B", "--bytecode", "-X", "--x86", "--debug", "--debug="], w ≠ lit o := h2
    have pd : w.take 2 ≠ lit "-d" := fun e => h3 "-d" (by decide) ⟨w.drop 2, by rw [← lit_ascii, ← e, List.take_append_drop]⟩
    have pd' : w ≠ lit "-d" := fun e => pd (by rw [e]; decide)
    have pm : w.take 2 ≠ lit "-M" := fun e => h3 "-M" (by decide) ⟨w.drop 2, by rw [← lit_ascii, ← e, List.take_append_drop]⟩
    have pc : w.take 10 ≠ lit "--compile=" := fun e => h3 "--compile=" (by decide) ⟨w.drop 10, by rw [← lit_ascii, ← e, List.take_append_drop]⟩
    have pe : (w.drop 1).head? ≠ some 0x65#8 := by
      intro e
      cases w with
      | nil => cases h1
      | cons x w =>
        cases w with
        | nil => cases e
        | cons y w =>
          cases h1
          cases e
          exact h3 "-e" (by decide) ⟨w, rfl⟩
    have m : ∀ o, o ∈ ["--", "-I", "--inspect", "-L", "-V", "--verbose", "-v", "--version", "-h", "--help", "-s", "--stats", "--check", "--compile", "-c",
      "-B", "--bytecode", "-X", "--x86", "--debug", "--debug="] → (w = lit o) = False := fun o ho => eq_false (n o ho)
    rw [scan_cons]
    simp only [m "--" (by decide), m "-I" (by decide), m "--inspect" (by decide), m "-L" (by decide), m "-V" (by decide), m "--verbose" (by decide),
      m "-v" (by decide), m "--version" (by decide), m "-h" (by decide), m "--help" (by decide), m "-s" (by decide), m "--stats" (by decide),
      m "--check" (by decide), m "--compile" (by decide), m "-c" (by decide), m "-B" (by decide), m "--bytecode" (by decide), m "-X" (by decide),
      m "--x86" (by decide), m "--debug" (by decide), m "--debug=" (by decide), eq_false pd, eq_false pd', eq_false pm, eq_false pc, eq_false pe, or_false, if_false]
    rw [if_pos h1]
    simp [after, Opt.isInspect, Opt.isVerbose, Opt.mode, Opt.code?, Opt.target, Opt.modules, Opt.dirs, Opt.unknown?]

theorem scan_opts (os : List Opt) (h : ∀ o ∈ os, o.Ok) (s : State) (as : List Arg) : scan s (spell os ++ as) = scan (os.foldl after s) as := by
  induction os generalizing s with
  | nil => rfl
  | cons o os ih =>
    show scan s ((o.words ++ os.flatMap Opt.words) ++ as) = _
    rw [List.append_assoc, scan_opt s o (h o List.mem_cons_self)]
    exact ih (fun o ho => h o (List.mem_cons_of_mem _ ho)) _

theorem last_cons {A} (f : Opt → Option A) (o : Opt) (os : List Opt) : last (o :: os) f = (last os f).or (f o) := by
  unfold last
  rw [List.filterMap_cons]
  cases h : f o with
  | none => simp
  | some a =>
    dsimp only
    rw [List.getLast?_cons]
    cases (os.filterMap f).getLast? <;> rfl

theorem fold_exec (os : List Opt) (s : State) : (os.foldl after s).exec = ((last os Opt.mode).map Mode.number).getD s.exec := by
  induction os generalizing s with
  | nil => rfl
  | cons o os ih =>
    rw [List.foldl_cons, ih, last_cons]
    cases last os Opt.mode <;> rfl

theorem fold_compile (os : List Opt) (s : State) : (os.foldl after s).compile = (last os Opt.target).getD s.compile := by
  induction os generalizing s with
  | nil => rfl
  | cons o os ih =>
    rw [List.foldl_cons, ih, last_cons]
    cases last os Opt.target <;> rfl

theorem fold_modules (os : List Opt) (s : State) : (os.foldl after s).addmodules = (last os Opt.modules).or s.addmodules := by
  induction os generalizing s with
  | nil => rfl
  | cons o os ih =>
    rw [List.foldl_cons, ih, last_cons]
    cases last os Opt.modules <;> rfl

theorem fold_dirs (os : List Opt) (s : State) : (os.foldl after s).dirs = s.dirs ++ os.filterMap Opt.dirs := by
  induction os generalizing s with
  | nil => simp
  | cons o os ih =>
    rw [List.foldl_cons, ih, List.filterMap_cons]
    cases h : o.dirs <;> simp [after, h]

theorem fold_unknown (os : List Opt) (s : State) : (os.foldl after s).unknown = s.unknown ++ os.filterMap Opt.unknown? := by
  induction os generalizing s with
  | nil => simp
  | cons o os ih =>
    rw [List.foldl_cons, ih, List.filterMap_cons]
    cases h : o.unknown? <;> simp [after, h]

theorem fold_buf (os : List Opt) (s : State) (h : ∀ o ∈ os, o.code? = none) : (os.foldl after s).buf = s.buf := by
  induction os generalizing s with
  | nil => rfl
  | cons o os ih =>
    rw [List.foldl_cons, ih _ (fun o ho => h o (List.mem_cons_of_mem _ ho))]
    simp [after, h o List.mem_cons_self]

/-- Bits 6 and 7 only. -/
def flagsOf (i v : Bool) : Nat := (if i then 64 else 0) + (if v then 128 else 0)

theorem fold_flags (os : List Opt) (s : State) (i v : Bool) (h : s.flags = flagsOf i v) :
    (os.foldl after s).flags = flagsOf (i || os.any Opt.isInspect) (v || os.any Opt.isVerbose) := by
  induction os generalizing s i v with
  | nil => simp [h]
  | cons o os ih =>
    rw [List.foldl_cons, ih _ (i || o.isInspect) (v || o.isVerbose), List.any_cons, List.any_cons, Bool.or_assoc, Bool.or_assoc]
    unfold after
    dsimp only
    rw [h]
    have hx : o.isInspect = false ∨ o.isVerbose = false := by cases o <;> simp [Opt.isInspect, Opt.isVerbose]
    generalize o.isInspect = a at hx ⊢
    generalize o.isVerbose = b at hx ⊢
    clear h ih
    revert a b i v
    decide

theorem means (m : Mode) (i v : Bool) : Means (flagsOf i v + m.number) m i v := by
  cases m <;> cases i <;> cases v <;> decide

end Potion.Cli
