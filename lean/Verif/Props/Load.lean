import Verif.Spec.Load
import Verif.Props.Dump
/-!
C62: `load`. `found` is in Spec/Load.lean.
-/
namespace Potion.Load
open Potion

theorem takeWhile_all {α} {p : α → Bool} {l r : List α} {x : α} (h : ∀ a ∈ l, p a = true) (hx : p x = false) :
    (l ++ x :: r).takeWhile p = l := by
  rw [List.takeWhile_append_of_pos h, List.takeWhile_cons_of_neg (by simp [hx]), List.append_nil]

theorem takeWhile_self {α} {p : α → Bool} {l : List α} (h : ∀ a ∈ l, p a = true) : l.takeWhile p = l := by
  have := List.takeWhile_append_of_pos (l₂ := []) h
  simpa using this

theorem base_eq {name last : List Byte} (h : IsBase name last) : base name = last := by
  obtain ⟨h1, h2⟩ := h
  have all : ∀ a ∈ last.reverse, (decide (a ≠ slash)) = true := by
    intro a ha
    simp only [decide_eq_true_eq]
    rintro rfl
    exact h1 (List.mem_reverse.1 ha)
  rcases h2 with rfl | ⟨d, rfl⟩
  · rw [base, takeWhile_self all, List.reverse_reverse]
  · simp only [base, List.reverse_append, List.reverse_cons, List.reverse_nil, List.nil_append, List.singleton_append]
    rw [takeWhile_all all (by simp), List.reverse_reverse]

theorem cstr_nul {s : List Byte} (h : (0 : Byte) ∉ s) : cstr (s ++ [0]) = s := by
  apply takeWhile_all
  · intro a ha
    simp only [decide_eq_true_eq]
    rintro rfl
    exact h ha
  · simp

theorem cstr_self {s : List Byte} (h : (0 : Byte) ∉ s) : cstr s = s := by
  apply takeWhile_self
  intro a ha
  simp only [decide_eq_true_eq]
  rintro rfl
  exact h ha

theorem withExts_find {fs : Fs} {p : Path} :
    (withExts p).find? (fun p => (fs p).isSome) =
      if (fs p).isSome then some p else (findExt fs p).map (p ++ ·) := by
  have : withExts p = p :: exts.map (p ++ ·) := rfl
  rw [this, List.find?_cons]
  cases (fs p).isSome
  · rw [List.find?_map]; rfl
  · rfl

/-- One directory. -/
theorem tryDir_eq {fs : Fs} {dir name last junk : List Byte} (hd : (0 : Byte) ∉ dir) (hn : (0 : Byte) ∉ name) (hdot : dot ∉ name)
    (hb : IsBase name last)
    (hs : name = last ∨ ∀ e ∈ exts, fs (dir ++ [slash] ++ name ++ [slash] ++ last ++ e) = none) :
    (tryDir fs dir name junk).1 = name ∧ (tryDir fs dir name junk).2.map (·.path) =
      (candidates name last dir).find? (fun p => (fs p).isSome) := by
  have d0 : name.idxOf? dot = none := List.idxOf?_eq_none_iff.2 hdot
  have dn : cstr (dir ++ [slash] ++ name ++ [0]) = dir ++ [slash] ++ name := by
    apply cstr_nul
    simp only [List.mem_append, List.mem_singleton]
    rintro ((h | h) | h)
    · exact hd h
    · exact absurd h (by decide)
    · exact hn h
  have tf : (if (none : Option Nat).isSome = true then junk else [0]) = ([0] : List Byte) := rfl
  simp only [tryDir, d0, tf, dn, cstr_self hn, base_eq hb]
  rw [candidates, List.find?_append, withExts_find, withExts_find]
  have dl : (dir ++ [slash] ++ name).length = dir.length + 1 + name.length := by simp; omega
  generalize dir ++ [slash] ++ name = d at hs dl ⊢
  by_cases h1 : (fs d).isSome = true
  · simp only [h1, if_true]
    exact ⟨trivial, rfl⟩
  · simp only [h1]
    cases h2 : findExt fs d with
    | some e => exact ⟨rfl, rfl⟩
    | none =>
      by_cases h3 : (fs (d ++ [slash] ++ last)).isSome = true
      · simp only [h3, if_true]
        exact ⟨rfl, rfl⟩
      · simp only [h3]
        cases h4 : findExt fs (d ++ [slash] ++ last) with
        | none => exact ⟨rfl, rfl⟩
        | some e =>
          rcases hs with rfl | hs
          · have : dir.length + 1 + name.length * 2 + 1 = (d ++ [slash] ++ name).length := by
              simp only [List.length_append, List.length_singleton]; omega
            simp only [this, Nat.le_refl, if_true, List.take_length]
            exact ⟨rfl, rfl⟩
          · have he := List.mem_of_find?_eq_some h4
            have := List.find?_some h4
            rw [hs e he] at this
            cases this

/-- C62. `load` looks for a name (without a dot) in every directory of the path, in their order, for the name itself, the name with
one of the extensions, and then in the directory of that name; it takes the first file there is, and leaves the name alone.
Partial: for a name with slashes, if there is no file to be found under its last component with an extension (`C62_refuted_slash`). -/
theorem C62_find_partial {fs : Fs} {junk : Nat → List Byte} {paths : List Path} {name last : List Byte}
    (hp : ∀ d ∈ paths, (0 : Byte) ∉ d) (hn : (0 : Byte) ∉ name) (hdot : dot ∉ name) (hb : IsBase name last)
    (hs : name = last ∨ ∀ d ∈ paths, ∀ e ∈ exts, fs (d ++ [slash] ++ name ++ [slash] ++ last ++ e) = none) :
    (findFile fs junk paths name).1 = name ∧ (findFile fs junk paths name).2.map (·.path) = found fs paths name last := by
  induction paths with
  | nil => exact ⟨rfl, rfl⟩
  | cons d ps ih =>
    obtain ⟨t1, t2⟩ := tryDir_eq (fs := fs) (junk := junk ps.length) (hp d (by simp)) hn hdot hb (by
      rcases hs with h | h
      · exact .inl h
      · exact .inr (h d (by simp)))
    have ih := ih (fun x hx => hp x (by simp [hx])) (by
      rcases hs with h | h
      · exact .inl h
      · exact .inr fun x hx => h x (by simp [hx]))
    simp only [findFile, found, List.flatMap_cons, List.find?_append, ← t2]
    generalize tryDir fs d name (junk ps.length) = q at t1 t2 ⊢
    obtain ⟨n, o⟩ := q
    simp only at t1
    subst t1
    cases o with
    | none => exact ih
    | some h => exact ⟨rfl, rfl⟩

theorem extOf_dot {s e : List Byte} (hs : s ≠ []) (he : dot ∉ e) : extOf (s ++ [dot] ++ e) = some e := by
  have all : ∀ a ∈ e.reverse, (decide (a ≠ dot)) = true := by
    intro a ha
    simp only [decide_eq_true_eq]
    rintro rfl
    exact he (List.mem_reverse.1 ha)
  have h : ((s ++ [dot] ++ e).reverse.takeWhile (· ≠ dot)).reverse = e := by
    simp only [List.reverse_append, List.reverse_cons, List.reverse_nil, List.nil_append, List.singleton_append]
    rw [takeWhile_all all (by simp), List.reverse_reverse]
  have l : 0 < s.length := List.length_pos_iff.2 hs
  simp only [extOf, h, List.length_append, List.length_singleton]
  rw [if_neg (by omega), if_neg (by omega)]

/-- What `load` does with a file. -/
theorem load_found {D : Type} {F : Dump.Fmt D} {fs : Fs} {junk : Nat → List Byte} {paths : List Path} {name last : List Byte}
    (hp : ∀ d ∈ paths, (0 : Byte) ∉ d) (hn : (0 : Byte) ∉ name) (hdot : dot ∉ name) (hb : IsBase name last)
    (hs : name = last ∨ ∀ d ∈ paths, ∀ e ∈ exts, fs (d ++ [slash] ++ name ++ [slash] ++ last ++ e) = none) :
    load F fs junk paths name = (name, match found fs paths name last with
      | none => [.message]
      | some f => match extOf f with
        | none => [.message]
        | some e =>
          if e = pn.drop 1 then loadCode F fs f
          else if e = pnb.drop 1 then loadCode F fs f
          else if e = so.drop 1 then [.init f (initName f)]
          else [.message]) := by
  obtain ⟨h1, h2⟩ := C62_find_partial (junk := junk) hp hn hdot hb hs
  rw [load, ← h2]
  generalize findFile fs junk paths name = q at h1 h2 ⊢
  obtain ⟨n, o⟩ := q
  simp only at h1
  subst h1
  cases o <;> rfl

/-- C62. If the file found is a source file, its text, and nothing else, is run. -/
theorem C62_source_partial {D : Type} {F : Dump.Fmt D} {fs : Fs} {junk : Nat → List Byte} {paths : List Path} {name last : List Byte}
    (hp : ∀ d ∈ paths, (0 : Byte) ∉ d) (hn : (0 : Byte) ∉ name) (hdot : dot ∉ name) (hb : IsBase name last)
    (hs : name = last ∨ ∀ d ∈ paths, ∀ e ∈ exts, fs (d ++ [slash] ++ name ++ [slash] ++ last ++ e) = none)
    {s src : List Byte} (h : found fs paths name last = some (s ++ pn)) (h0 : s ≠ []) (hsrc : fs (s ++ pn) = some src)
    (htext : ¬ [0x70, 0x07, 0x08, 0x6e] <+: src) :
    load F fs junk paths name = (name, [.run (s ++ pn) src]) := by
  rw [load_found hp hn hdot hb hs, h]
  have : extOf (s ++ pn) = some (pn.drop 1) := by
    have := extOf_dot (e := pn.drop 1) h0 (by decide)
    simpa [pn, dot] using this
  simp only [this, if_true, loadCode, hsrc, Dump.C23_rejects F src (.inr htext)]

/-- C62. If there is no file, nothing happens but a message. -/
theorem C62_missing {D : Type} {F : Dump.Fmt D} {fs : Fs} {junk : Nat → List Byte} {paths : List Path} {name last : List Byte}
    (hp : ∀ d ∈ paths, (0 : Byte) ∉ d) (hn : (0 : Byte) ∉ name) (hdot : dot ∉ name) (hb : IsBase name last)
    (h : ∀ d ∈ paths, ∀ c ∈ candidates name last d, fs c = none) : load F fs junk paths name = (name, [.message]) := by
  rw [load_found hp hn hdot hb (.inr fun d hd e he => h d hd _ (by
    simp only [exts, List.mem_cons, List.not_mem_nil, or_false] at he
    rcases he with rfl | rfl | rfl <;> simp [candidates, withExts]))]
  have : found fs paths name last = none := by
    rw [found, List.find?_eq_none]
    intro x hx
    obtain ⟨d, hd, hc⟩ := List.mem_flatMap.1 hx
    simp [h d hd x hc]
  simp only [this]

/-- C62. If the file found is a shared object, its function Potion_Init_name is called. Partial: if the directory has no dot
after its first byte (`C62_refuted_init`). -/
theorem C62_native_partial {D : Type} {F : Dump.Fmt D} {fs : Fs} {junk : Nat → List Byte} {paths : List Path} {name last dir : List Byte}
    (hp : ∀ d ∈ paths, (0 : Byte) ∉ d) (hn : (0 : Byte) ∉ name) (hdot : dot ∉ name) (hb : IsBase name last)
    (hs : name = last ∨ ∀ d ∈ paths, ∀ e ∈ exts, fs (d ++ [slash] ++ name ++ [slash] ++ last ++ e) = none)
    (h : found fs paths name last = some (dir ++ [slash] ++ last ++ so)) (hd : dot ∉ dir.drop 1) (h0 : dir ≠ []) :
    load F fs junk paths name = (name, [.init (dir ++ [slash] ++ last ++ so)
      ([80, 111, 116, 105, 111, 110, 95, 73, 110, 105, 116, 95] ++ last)]) := by
  rw [load_found hp hn hdot hb hs, h]
  have hx : extOf (dir ++ [slash] ++ last ++ so) = some (so.drop 1) := by
    have := extOf_dot (s := dir ++ [slash] ++ last) (e := so.drop 1) (by simp) (by decide)
    simpa [so, dot] using this
  have hl : dot ∉ last := by
    rcases hb.2 with rfl | ⟨d, rfl⟩
    · exact hdot
    · intro h; exact hdot (by simp [h])
  have hi : initName (dir ++ [slash] ++ last ++ so) = [80, 111, 116, 105, 111, 110, 95, 73, 110, 105, 116, 95] ++ last := by
    rw [initName]
    congr 1
    obtain ⟨c, ds, rfl⟩ := List.exists_cons_of_ne_nil h0
    have e1 : (c :: ds ++ [slash] ++ last ++ so).drop 1 = (ds ++ [slash] ++ last) ++ dot :: so.drop 1 := by
      simp [so, dot]
    have e2 : (c :: ds ++ [slash] ++ last ++ so).take 1 = [c] := rfl
    rw [e1, e2, takeWhile_all]
    · apply base_eq
      exact ⟨hb.1, .inr ⟨c :: ds, by simp⟩⟩
    · intro a ha
      simp only [decide_eq_true_eq]
      rintro rfl
      simp only [List.mem_append, List.mem_singleton] at ha
      rcases ha with (h | h) | h
      · exact hd h
      · exact absurd h (by decide)
      · exact hl h
    · simp
  simp only [hx, hi]
  rfl

/-! ### Examples, and what goes wrong -/
namespace Ex

/-- "lib", "." -/
def paths : List Path := [[108, 105, 98], [46]]
/-- "x" -/
def x : Path := [120]
/-- "./x.pn" with the text `1`. -/
def fs : Fs := fun p => if p = [46, 47, 120] ++ pn then some [49] else none

/-- The hypotheses of `C62_source_partial` hold for `load "x"`. -/
example (junk) : load Dump.asText fs junk paths x = (x, [.run ([46, 47, 120] ++ pn) [49]]) :=
  C62_source_partial (by decide) (by decide) (by decide) (last := x) ⟨by decide, .inl rfl⟩ (.inl rfl) (by decide +kernel) (by decide)
    (by decide +kernel) (by decide)

/-- Those of `C62_native_partial` for "lib/x.so". -/
example (junk) : load Dump.asText (fun p => if p = [108, 105, 98, 47, 120] ++ so then some [] else none) junk paths x =
    (x, [.init ([108, 105, 98, 47, 120] ++ so) [80, 111, 116, 105, 111, 110, 95, 73, 110, 105, 116, 95, 120]]) :=
  C62_native_partial (last := x) (dir := [108, 105, 98]) (by decide) (by decide) (by decide) ⟨by decide, .inl rfl⟩ (.inl rfl)
    (by decide +kernel) (by decide) (by decide)

end Ex

/-- C62, refuted for compiled files: whatever the program, loading its bytecode file runs nothing. -/
theorem C62_refuted_pnb {D : Type} (F : Dump.Fmt D) (f : Dump.Fn D) (h : Dump.FnOk F false f) (bs : List Byte)
    (hd : Dump.dump F f = some bs) {fs : Fs} {junk : Nat → List Byte} {paths : List Path} {name last : List Byte}
    (hp : ∀ d ∈ paths, (0 : Byte) ∉ d) (hn : (0 : Byte) ∉ name) (hdot : dot ∉ name) (hb : IsBase name last)
    (hs : name = last ∨ ∀ d ∈ paths, ∀ e ∈ exts, fs (d ++ [slash] ++ name ++ [slash] ++ last ++ e) = none)
    {s : List Byte} (hf : found fs paths name last = some (s ++ pnb)) (h0 : s ≠ []) (hsrc : fs (s ++ pnb) = some bs) :
    load F fs junk paths name = (name, []) := by
  rw [load_found hp hn hdot hb hs, hf]
  have : extOf (s ++ pnb) = some (pnb.drop 1) := by
    have := extOf_dot (e := pnb.drop 1) h0 (by decide)
    simpa [pnb, dot] using this
  have ne : pnb.drop 1 ≠ pn.drop 1 := by decide
  simp only [this, if_true, loadCode, hsrc, Dump.C23_roundtrip_partial F f h bs hd, ne, if_false]

/-- C62, refuted for names with a dot: a NUL is written over it in the string that was passed, whatever files there are. -/
theorem C62_refuted_dot {D : Type} (F : Dump.Fmt D) (fs : Fs) (junk : Nat → List Byte) (dir : Path) (a b : List Byte)
    (h : dot ∉ a) : (load F fs junk [dir] (a ++ [dot] ++ b)).1 = a ++ [0] ++ b := by
  have h1 : (a ++ [dot] ++ b).idxOf? dot = some a.length := by
    rw [List.idxOf?_eq_some_iff]
    refine ⟨by simp, by simp, ?_⟩
    intro j hj
    have : (a ++ [dot] ++ b)[j]'(by simp; omega) = a[j] := by
      rw [List.getElem_append_left (by simp; omega), List.getElem_append_left hj]
    rw [this]
    intro e
    exact h (e ▸ List.getElem_mem hj)
  have h2 : (a ++ [dot] ++ b).set a.length 0 = a ++ [0] ++ b := by
    rw [List.append_assoc, List.set_append_right _ _ (Nat.le_refl _)]
    simp
  have h3 : (tryDir fs dir (a ++ [dot] ++ b) (junk 0)).1 = a ++ [0] ++ b := by
    simp only [tryDir, h1, h2]
    generalize cstr _ = d
    generalize base _ = t
    cases (fs d).isSome with
    | true => rfl
    | false =>
      simp only [Bool.false_eq_true, if_false]
      cases findExt fs d with
      | some e => rfl
      | none =>
        simp only
        cases (fs (d ++ [slash] ++ t)).isSome with
        | true => rfl
        | false =>
          simp only [Bool.false_eq_true, if_false]
          cases findExt fs (d ++ [slash] ++ t) <;> rfl
  simp only [load, findFile, List.length_nil]
  generalize tryDir fs dir (a ++ [dot] ++ b) (junk 0) = q at h3 ⊢
  obtain ⟨n, o⟩ := q
  cases o <;> exact h3

/-- C62, refuted for names with slashes: the extension is lost. There is a file lib/a/b/b.pn, and nothing is run. -/
theorem C62_refuted_slash : ∃ (fs : Fs) (name : Path), fs ([108, 105, 98] ++ [slash] ++ name ++ [slash] ++ [98] ++ pn) = some [49] ∧
    ∀ junk, load Dump.asText fs junk [[108, 105, 98]] name = (name, [.message]) := by
  refine ⟨fun p => if p = [108, 105, 98, 47, 97, 47, 98, 47, 98] ++ pn then some [49] else none, [97, 47, 98], by decide +kernel, ?_⟩
  intro junk
  rfl

/-- C62, refuted for directories with a dot: for "../x.so" the function called is "Potion_Init_.". -/
theorem C62_refuted_init : initName ([46, 46, 47, 120] ++ so) = [80, 111, 116, 105, 111, 110, 95, 73, 110, 105, 116, 95] ++ [46] := by
  decide

/-- C62, refuted: a file found in the directory of its name with an extension is written to a block that is one byte too small. -/
theorem C62_refuted_room {fs : Fs} {dir name junk : List Byte} (hd : (0 : Byte) ∉ dir) (hn : (0 : Byte) ∉ name) (hdot : dot ∉ name)
    (hs : slash ∉ name)
    (h : ∀ p ∈ withExts (dir ++ [slash] ++ name) ++ [dir ++ [slash] ++ name ++ [slash] ++ name], fs p = none) {e} (he : e ∈ exts)
    (hf : (fs (dir ++ [slash] ++ name ++ [slash] ++ name ++ e)).isSome = true) :
    ∃ hit, (tryDir fs dir name junk).2 = some hit ∧ hit.room + 1 = hit.used := by
  have d0 : name.idxOf? dot = none := List.idxOf?_eq_none_iff.2 hdot
  have dn : cstr (dir ++ [slash] ++ name ++ [0]) = dir ++ [slash] ++ name := by
    apply cstr_nul
    simp only [List.mem_append, List.mem_singleton]
    rintro ((h | h) | h)
    · exact hd h
    · exact absurd h (by decide)
    · exact hn h
  have tf : (if (none : Option Nat).isSome = true then junk else [0]) = ([0] : List Byte) := rfl
  simp only [tryDir, d0, tf, dn, cstr_self hn, base_eq (last := name) ⟨hs, .inl rfl⟩]
  have n1 : findExt fs (dir ++ [slash] ++ name) = none := by
    rw [findExt, List.find?_eq_none]
    intro x hx
    rw [h _ (by
      simp only [exts, List.mem_cons, List.not_mem_nil, or_false] at hx
      rcases hx with rfl | rfl | rfl <;> simp [withExts])]
    simp
  rw [h (dir ++ [slash] ++ name) (by simp [withExts]), h (dir ++ [slash] ++ name ++ [slash] ++ name) (by simp), n1]
  cases h4 : findExt fs (dir ++ [slash] ++ name ++ [slash] ++ name) with
  | none =>
    rw [findExt, List.find?_eq_none] at h4
    exact absurd hf (h4 e he)
  | some e' => exact ⟨_, rfl, rfl⟩

end Potion.Load
