import Verif.Props.Cli
/-!
C74: what running the command does to files and which function it runs. `main F front jit fs args` (Model/Cli.lean): the files
afterwards, what happened, and the exit status. `front text name`: what a program text is parsed and compiled into, if it has no
errors.
-/
namespace Potion.Cli
open Potion Potion.Spec.Cli
variable {D : Type} (F : Dump.Fmt D) (front : List Byte → Arg → Option (Dump.Fn D))

/-- Options that say how a file is run. -/
structure Plain (os : List Opt) : Prop where
  ok : ∀ o ∈ os, o.Ok
  code : ∀ o ∈ os, o.code? = none
  modules : ∀ o ∈ os, o.modules = none

theorem Plain.one {os : List Opt} (h : Plain os) : (os.filter Opt.hasModule).length ≤ 1 := by
  rw [List.filter_eq_nil_iff.2 fun o ho => by simp [Opt.hasModule, h.modules o ho]]
  simp

theorem Plain.none {os : List Opt} (h : Plain os) : allModules os = [] := by
  unfold allModules
  rw [List.filterMap_eq_nil_iff.2 fun o ho => h.modules o ho]
  rfl

theorem exec_of_means {flags : Nat} {m : Mode} {i v : Bool} (h : Means flags m i v) : flags &&& 15 = m.number := by
  rw [← h.1]
  exact Nat.and_two_pow_sub_one_eq_mod flags 4

/-- Running a file. -/
theorem main_file (jit : Bool) (fs : Load.Fs) (os : List Opt) (h : Plain os) (tail : List Arg) (fn : Arg) (args : List Arg) (he : Ends tail (fn :: args))
    (text : List Byte) (hf : fs fn = some text) :
    ∃ flags, Means flags (mode (dflt jit) os) (os.any Opt.isInspect) (os.any Opt.isVerbose) ∧
      ∀ r, r = execute F front fs flags ((last os Opt.target).getD none) fn text →
      main F front jit fs (spell os ++ tail) = (r.1, r.2, status r) := by
  obtain ⟨flags, add, h1, h2, h3⟩ := C73_file_partial jit os h.ok h.code h.one tail fn args he
  refine ⟨flags, h2, fun r hr => ?_⟩
  rw [h.none] at h3
  have : cmdExec F front fs flags none (some fn) ((last os Opt.target).getD none) add = r := by
    rw [hr]
    unfold cmdExec sourceOf
    dsimp only
    rw [hf]
    simp [h3]
  unfold main
  rw [h1]
  dsimp only
  rw [this]

/-- The function a text stands for: compiled, or loaded. -/
def Gives (name text : List Byte) (f : Dump.Fn D) : Prop :=
  Dump.load F text = .fn f ∨ Dump.load F text = .nil ∧ front text name = some f

theorem execute_run {fs : Load.Fs} {flags : Nat} {m : Mode} {i v : Bool} (hm : Means flags m i v) (hr : m = .bytecode ∨ m = .jit ∨ m = .debug)
    (target : Option (List Byte)) {name text : List Byte} {f : Dump.Fn D} (h : Gives F front name text f) :
    execute F front fs flags target name text = (fs, [.ran m.number f]) := by
  have he := exec_of_means hm
  unfold execute
  rw [he]
  rcases h with h | ⟨h, h'⟩ <;> rw [h] <;> (try rw [h']) <;> rcases hr with rfl | rfl | rfl <;> rfl

/-- C74: a file is run in the mode asked for, on its contents alone; no file is changed; the exit status is 0. -/
theorem C74_run (jit : Bool) (fs : Load.Fs) (os : List Opt) (h : Plain os) (m : Mode) (hm : mode (dflt jit) os = m) (hr : m = .bytecode ∨ m = .jit)
    (tail : List Arg) (fn : Arg) (args : List Arg) (he : Ends tail (fn :: args)) (text : List Byte) (hf : fs fn = some text) (f : Dump.Fn D)
    (hg : Gives F front fn text f) : main F front jit fs (spell os ++ tail) = (fs, [.ran m.number f], some 0) := by
  obtain ⟨flags, h1, h2⟩ := main_file F front jit fs os h tail fn args he text hf
  rw [hm] at h1
  rw [h2 _ rfl, execute_run F front h1 (by rcases hr with rfl | rfl <;> simp) _ hg]
  rfl

/-- C74: with `--check` nothing is run and no file is changed, whatever the file contains. -/
theorem C74_check (jit : Bool) (fs : Load.Fs) (os : List Opt) (h : Plain os) (hm : mode (dflt jit) os = .check)
    (tail : List Arg) (fn : Arg) (args : List Arg) (he : Ends tail (fn :: args)) (text : List Byte) (hf : fs fn = some text) :
    (main F front jit fs (spell os ++ tail)).1 = fs ∧
    ((main F front jit fs (spell os ++ tail)).2.1 = [] ∨ (main F front jit fs (spell os ++ tail)).2.1 = [.errors] ∨
      Dump.load F text = .crash) := by
  obtain ⟨flags, h1, h2⟩ := main_file F front jit fs os h tail fn args he text hf
  rw [hm] at h1
  rw [h2 _ rfl]
  have hx := exec_of_means h1
  unfold execute
  rw [hx]
  cases hl : Dump.load F text with
  | crash => exact ⟨rfl, .inr (.inr rfl)⟩
  | fn f => exact ⟨rfl, .inl rfl⟩
  | nil =>
    dsimp only
    cases front text fn
    · exact ⟨rfl, .inr (.inl rfl)⟩
    · exact ⟨rfl, .inl rfl⟩

/-- C74: compiling a program text writes one file, named like the text and `b`; running that file, with any options and arguments that run
the text itself, runs the same function in the same mode. Partial: the function is one that bytecode can store (C23: at most
255 constants and so on, and at most 8200 bytes), the name has at most 253 bytes (`C74_refuted_name`), and no modules are named
(`C74_refuted_modules`). -/
theorem C74_compile_partial (jit : Bool) (fs : Load.Fs) (os : List Opt) (h : Plain os) (hm : mode (dflt jit) os = .compile) (ht : (last os Opt.target).getD none = none)
    (tail : List Arg) (name : Arg) (args : List Arg) (he : Ends tail (name :: args)) (hn : name.length ≤ 253)
    (text : List Byte) (hf : fs name = some text) (hmagic : text.length ≤ 8 ∨ ¬ [0x70, 0x07, 0x08, 0x6e] <+: text)
    (f : Dump.Fn D) (hc : front text name = some f) (hok : Dump.FnOk F false f) (hs : (Dump.dumpFn F f).length ≤ 8200) :
    ∃ fs', main F front jit fs (spell os ++ tail) = (fs', [.wrote (name ++ ascii "b")], some 0) ∧
      (∀ p, p ≠ name ++ ascii "b" → fs' p = fs p) ∧
      ∀ (jit : Bool) (os : List Opt) (_ : Plain os) (m : Mode) (_ : mode (dflt jit) os = m) (_ : m = .bytecode ∨ m = .jit) (args tail tailb : List Arg),
        Ends tail (name :: args) → Ends tailb ((name ++ ascii "b") :: args) →
        main F front jit fs (spell os ++ tail) = (fs, [.ran m.number f], some 0) ∧
        main F front jit fs' (spell os ++ tailb) = (fs', [.ran m.number f], some 0) := by
  obtain ⟨flags, h1, h2⟩ := main_file F front jit fs os h tail name args he text hf
  rw [hm] at h1
  have hx := exec_of_means h1
  obtain ⟨bs, hbs⟩ := Option.isSome_iff_exists.1 ((Dump.C23_size F f).2 hs)
  have hl := Dump.C23_rejects F text hmagic
  have hb := Dump.C23_roundtrip_partial F f hok bs hbs
  have hex : execute F front fs flags ((last os Opt.target).getD none) name text = (write fs (name ++ lit "b") bs, [.wrote (name ++ lit "b")]) := by
    unfold execute
    rw [hx, hl]
    dsimp only
    rw [hc, ht]
    show save F fs name f = _
    unfold save
    rw [if_neg (by omega), hbs]
  refine ⟨write fs (name ++ lit "b") bs, ?_, fun p hp => if_neg hp, fun jit os h m hm hr args tail tailb e1 e2 => ⟨?_, ?_⟩⟩
  · rw [h2 _ rfl, hex]; rfl
  · exact C74_run F front jit fs os h m hm hr tail name args e1 text hf f (.inr ⟨hl, hc⟩)
  · exact C74_run F front jit _ os h m hm hr tailb _ args e2 bs (if_pos rfl) f (.inl hb)

/-- C74 refuted: the name of the file is put together in a buffer of 255 bytes, whatever its length. -/
theorem C74_refuted_name (jit : Bool) (fs : Load.Fs) (os : List Opt) (h : Plain os) (hm : mode (dflt jit) os = .compile) (ht : (last os Opt.target).getD none = none)
    (tail : List Arg) (name : Arg) (args : List Arg) (he : Ends tail (name :: args)) (hn : 254 ≤ name.length)
    (text : List Byte) (hf : fs name = some text) (f : Dump.Fn D) (hg : Gives F front name text f) :
    main F front jit fs (spell os ++ tail) = (fs, [.crash], none) := by
  obtain ⟨flags, h1, h2⟩ := main_file F front jit fs os h tail name args he text hf
  rw [hm] at h1
  have hx := exec_of_means h1
  have hex : execute F front fs flags ((last os Opt.target).getD none) name text = (fs, [.crash]) := by
    unfold execute
    rw [hx, ht]
    have hs : save F fs name f = (fs, [.crash]) := if_pos (by omega)
    rcases hg with h | ⟨h, h'⟩ <;> rw [h] <;> (try rw [h']) <;> exact hs
  rw [h2 _ rfl, hex]
  rfl

theorem load_loading (file name : List Byte) (args : Option (List Byte)) (c : List Byte) : Dump.load F (loading file name args ++ c) = .nil := by
  refine Dump.C23_rejects F _ (.inr ?_)
  rintro ⟨t, ht⟩
  have : (loading file name args ++ c).head? = some 0x6C#8 := rfl
  rw [← ht] at this
  have : some 0x70#8 = some 0x6C#8 := this
  exact absurd this (by decide)

theorem loading_of_module {o : Opt} {t : List Byte} (h : o.modules = some t) : ∃ file name args, t = loading file name args := by
  cases o <;> simp [Opt.modules] at h <;> exact ⟨_, _, _, h.symm⟩

/-- C74 refuted: with `-M` or `-d` a bytecode file is not recognised: all of it is parsed as text. -/
theorem C74_refuted_modules (jit : Bool) (fs : Load.Fs) (os : List Opt) (ok : ∀ o ∈ os, o.Ok) (nc : ∀ o ∈ os, o.code? = none)
    (one : (os.filter Opt.hasModule).length = 1) (m : Mode) (hm : mode (dflt jit) os = m) (hr : m = .bytecode ∨ m = .jit ∨ m = .debug)
    (tail : List Arg) (fn : Arg) (args : List Arg) (he : Ends tail (fn :: args)) (c : List Byte) (hf : fs fn = some c) :
    (main F front jit fs (spell os ++ tail)).2.1 = match front (allModules os ++ c) fn with
      | some f => [.ran m.number f]
      | none => [.errors] := by
  obtain ⟨flags, add, h1, h2, h3⟩ := C73_file_partial jit os ok nc (by omega) tail fn args he
  have hx : ∃ file name a, allModules os = loading file name a := by
    rw [← one_module (by omega)]
    have hne : ∃ o ∈ os, o.hasModule = true := by
      cases hfl : os.filter Opt.hasModule with
      | nil => rw [hfl] at one; cases one
      | cons o l => exact ⟨o, (List.mem_filter.1 (hfl ▸ List.mem_cons_self)).1, (List.mem_filter.1 (hfl ▸ List.mem_cons_self)).2⟩
    cases hl : last os Opt.modules with
    | none =>
      obtain ⟨o, ho, hh⟩ := hne
      have := List.filterMap_eq_nil_iff.1 (List.getLast?_eq_none_iff.1 hl) o ho
      simp [Opt.hasModule, this] at hh
    | some t =>
      obtain ⟨o, _, ho⟩ := List.mem_filterMap.1 (List.mem_of_getLast? hl)
      exact loading_of_module ho
  obtain ⟨file, name, a, hx⟩ := hx
  have hl : Dump.load F (allModules os ++ c) = .nil := by rw [hx]; exact load_loading F ..
  rw [hm] at h2
  have hc : cmdExec F front fs flags none (some fn) ((last os Opt.target).getD none) add =
      execute F front fs flags ((last os Opt.target).getD none) fn (allModules os ++ c) := by
    unfold cmdExec sourceOf
    dsimp only
    rw [hf]
    simp [h3]
  unfold main
  rw [h1]
  dsimp only
  rw [hc]
  cases hfr : front (allModules os ++ c) fn with
  | some f => rw [execute_run F front h2 hr _ (.inr ⟨hl, hfr⟩)]
  | none =>
    unfold execute
    rw [hl]
    dsimp only
    rw [hfr]

/-- C74 refuted: a file that does not exist, or a program with errors, gives the exit status 0. -/
theorem C74_refuted_status (jit : Bool) (fs : Load.Fs) (fn : Arg) (hd : fn.head? ≠ some 0x2D#8) (args : List Arg) :
    (fs fn = none → main F front jit fs (fn :: args) = (fs, [.message], some 0)) ∧
    (∀ text, fs fn = some text → (text.length ≤ 8 ∨ ¬ [0x70, 0x07, 0x08, 0x6e] <+: text) → front text fn = none →
      main F front jit fs (fn :: args) = (fs, [.errors], some 0)) := by
  have hp : Plain [] := ⟨nofun, nofun, nofun⟩
  refine ⟨fun h => ?_, fun text hf hmagic hfr => ?_⟩
  · obtain ⟨flags, add, h1, h2, h3⟩ := C73_file_partial jit [] hp.ok hp.code hp.one (fn :: args) fn args (.word _ _ hd)
    have h1 : task jit (fn :: args) = _ := h1
    unfold main
    rw [h1]
    dsimp only
    have : ∀ t, cmdExec F front fs flags none (some fn) t add = (fs, [.message]) := fun t => by
      unfold cmdExec sourceOf
      dsimp only
      rw [h]
      rfl
    rw [this]
    rfl
  · obtain ⟨flags, h1, h2⟩ := main_file F front jit fs [] hp (fn :: args) fn args (.word _ _ hd) text hf
    have h2 := h2 _ rfl
    have h2 : main F front jit fs (fn :: args) = _ := h2
    rw [h2]
    unfold execute
    rw [Dump.C23_rejects F text hmagic]
    dsimp only
    rw [hfr]
    rfl

/-- C74 refuted: compiling the program of `-e` writes a file whose name is an option: running it by that name runs the program `b`. -/
theorem C74_refuted_code (jit : Bool) (fs : Load.Fs) (f : Dump.Fn D) (h : front (ascii "1") (ascii "-e") = some f) (bs : List Byte) (hd : Dump.dump F f = some bs) :
    (main F front jit fs (words ["-c", "-e1"])).1 (ascii "-eb") = some bs ∧
    ∃ flags, task jit (words ["-eb"]) = .code flags (ascii "b") none (words ["-e"]) [] [] := by
  have e : task jit (words ["-c", "-e1"]) = .code 4 (ascii "1") none (words ["-e"]) [] [] := by cases jit <;> decide
  refine ⟨?_, (initial jit).exec, by cases jit <;> decide⟩
  have hl : Dump.load F (ascii "1") = .nil := Dump.C23_rejects F _ (.inl (by decide))
  have hs : save F fs (lit "-e") f = (write fs (lit "-e" ++ lit "b") bs, [.wrote (lit "-e" ++ lit "b")]) := by
    unfold save
    rw [if_neg (by decide), hd]
  have hx : execute F front fs 4 none (lit "-e") (ascii "1") = (write fs (lit "-e" ++ lit "b") bs, [.wrote (lit "-e" ++ lit "b")]) := by
    unfold execute
    rw [hl]
    dsimp only
    rw [lit_ascii, h, ← lit_ascii]
    exact hs
  unfold main
  rw [e]
  show (execute F front fs 4 none (lit "-e") (ascii "1")).1 (ascii "-eb") = _
  rw [hx]
  rfl

/-! ### The hypotheses are met -/

/-- A compiler of one program. -/
def exFront : List Byte → Arg → Option (Dump.Fn (List Byte)) := fun text _ => if text = ascii "a, b: 1." then some Dump.exNest else none

def exFs : Load.Fs := fun p => if p = ascii "p.pn" then some (ascii "a, b: 1.") else none

/-- `potion -V -c p.pn`, and then `potion -B p.pnb x` and `potion -B p.pn x`. -/
example : ∃ fs', main Dump.asText exFront true exFs (words ["-V", "-c", "p.pn"]) = (fs', [.wrote (ascii "p.pnb")], some 0) ∧
    main Dump.asText exFront true exFs (words ["-B", "p.pn", "x"]) = (exFs, [.ran 0 Dump.exNest], some 0) ∧
    main Dump.asText exFront true fs' (words ["-B", "p.pnb", "x"]) = (fs', [.ran 0 Dump.exNest], some 0) := by
  obtain ⟨fs', h1, _, h2⟩ := C74_compile_partial Dump.asText exFront true exFs [.verbose false, .compile false]
    ⟨by simp [Opt.Ok], by simp [Opt.code?], by simp [Opt.modules]⟩ (by decide) (by decide) (words ["p.pn"]) (ascii "p.pn") [] (.word _ _ (by decide)) (by decide)
    (ascii "a, b: 1.") (by decide) (.inl (by decide)) Dump.exNest rfl Dump.exNest_ok ((Dump.C23_size _ _).1 (by decide +kernel))
  have h3 := h2 true [.bytecode false] ⟨by simp [Opt.Ok], by simp [Opt.code?], by simp [Opt.modules]⟩ .bytecode (by decide) (.inl rfl) (words ["x"])
    (words ["p.pn", "x"]) (words ["p.pnb", "x"]) (.word _ _ (by decide)) (.word _ _ (by decide))
  exact ⟨fs', h1, h3.1, h3.2⟩

end Potion.Cli
