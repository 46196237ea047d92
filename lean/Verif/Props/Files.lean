import Verif.Proof.File
import Verif.Proof.Khash
/-! # C56: files, C57: lines and the environment -/
namespace Potion.Props
open Potion Potion.File

/-- A state reached by any history of file operations, whatever files and descriptors exist at the start. -/
def FileReachable (st : State) : Prop := ∃ os h, (run { os := os, objs := [] } h).1 = st

theorem FileReachable.inv {st : State} (h : FileReachable st) : Inv st := by
  obtain ⟨os, h, rfl⟩ := h
  exact run_inv h ⟨by simp, by simp⟩

/-- What a File object is open on: the file's name, the position, the access mode. `none`: closed. -/
def openOn (st : State) (i : Nat) : Option Desc := (st.objs[i]?).bind fun o => st.os.desc o.fd

/-- The contents of a file (empty if there is none). -/
def contents (st : State) (p : List (BitVec 8)) : List (BitVec 8) := (st.os.fs p).getD []

/-- The File object an operation is applied to. -/
def Op.target : Op → Option Nat
  | .new _ _ => none
  | .close i => some i
  | .read i _ _ => some i
  | .write i _ _ => some i
  | .print i _ _ => some i

/-- The name up to the NUL. -/
def cname (p : List (BitVec 8)) : List (BitVec 8) := p.takeWhile (· ≠ 0#8)

/-- C56: an operation on one File object leaves every other open as it was, on the same file, at the same position – even
when descriptors are reused after closing. -/
theorem C56_isolated (st : State) (hr : FileReachable st) (o : Op) (j : Nat) (hj : j < st.objs.length)
    (ht : Op.target o ≠ some j) : openOn (step st o).1 j = openOn st j := by
  have inv := hr.inv
  have hne : ∀ i : Nat, some i ≠ some j → j ≠ i := by rintro i h rfl; exact h rfl
  cases o with
  | new p m => exact (new_spec inv p m).2.1 j hj
  | close i => exact ((close_spec inv i).2.2.2 j).trans (if_neg (hne i ht))
  | read i n k => exact (read_spec inv i n k).2.2.2.1 j (hne i ht)
  | write i v k => exact (write_spec inv i v k).2.2.1 j (hne i ht)
  | print i s k =>
    have := (write_spec inv i (.str s) k).2.2.1 j (hne i ht)
    show view (filePrint st i s k).1 j = _
    rw [(print_eq st i s k).1]; exact this

/-- C56: opening. "r" and "r+" need an existing file, "w" and "w+" empty it, "a" and "a+" keep it; the last four make it
when it is missing. The new File is at the beginning; no other file changes. Any other mode gives nil and changes
nothing. -/
theorem C56_open (st : State) (hr : FileReachable st) (p m : List (BitVec 8)) (hm : 0#8 ∉ m) (hp : 0#8 ∉ p) :
    let r := step st (.new p m)
    let read := m ∈ [[0x72#8], [0x72#8, 0x2b#8], [0x77#8, 0x2b#8], [0x61#8, 0x2b#8]]
    let write := m ∈ [[0x72#8, 0x2b#8], [0x77#8], [0x77#8, 0x2b#8], [0x61#8], [0x61#8, 0x2b#8]]
    let empty := m ∈ [[0x77#8], [0x77#8, 0x2b#8]]
    let app := m ∈ [[0x61#8], [0x61#8, 0x2b#8]]
    (¬ read ∧ ¬ write → r = (st, .nil)) ∧
    (read ∨ write → st.os.fs p = none → ¬ empty → ¬ app → r = (st, .err)) ∧
    (read ∨ write → st.os.fs p ≠ none ∨ empty ∨ app →
      r.2 = .file st.objs.length ∧ r.1.objs.length = st.objs.length + 1 ∧
      (∃ d, openOn r.1 st.objs.length = some d ∧ d.path = p ∧ d.off = 0 ∧ (d.fl.rd = true ↔ read) ∧
        (d.fl.wr = true ↔ write) ∧ (d.fl.app = true ↔ app)) ∧
      r.1.os.fs p = some (if empty then [] else contents st p) ∧ ∀ q, q ≠ p → r.1.os.fs q = st.os.fs q) := by
  have strip : ∀ l : List (BitVec 8), 0#8 ∉ l → l.takeWhile (· ≠ 0#8) = l := by
    intro l hl
    induction l with
    | nil => rfl
    | cons b l ih =>
      rw [List.takeWhile_cons, if_pos]
      · rw [ih (fun hh => hl (by simp [hh]))]
      · simp; intro hb; exact hl (by simp [hb])
  have hpp := strip p hp
  have hmm := strip m hm
  intro r read write empty app
  have hs := new_spec hr.inv p m
  rw [hpp] at hs
  have hfl : (modeFlags m = none ∧ ¬ read ∧ ¬ write) ∨ ∃ fl, modeFlags m = some fl ∧ (fl.rd = true ↔ read) ∧
      (fl.wr = true ↔ write) ∧ (fl.trunc = true ↔ empty) ∧ (fl.creat = true ↔ empty ∨ app) ∧
      (fl.app = true ↔ app) ∧ (read ∨ write) := by
    simp only [modeFlags, hmm]
    by_cases h1 : m = [0x72#8]
    · right; subst h1; exact ⟨_, rfl, by decide, by decide, by decide, by decide, by decide, by decide⟩
    by_cases h2 : m = [0x72#8, 0x2b#8]
    · right; subst h2; exact ⟨_, rfl, by decide, by decide, by decide, by decide, by decide, by decide⟩
    by_cases h3 : m = [0x77#8]
    · right; subst h3; exact ⟨_, rfl, by decide, by decide, by decide, by decide, by decide, by decide⟩
    by_cases h4 : m = [0x77#8, 0x2b#8]
    · right; subst h4; exact ⟨_, rfl, by decide, by decide, by decide, by decide, by decide, by decide⟩
    by_cases h5 : m = [0x61#8]
    · right; subst h5; exact ⟨_, rfl, by decide, by decide, by decide, by decide, by decide, by decide⟩
    by_cases h6 : m = [0x61#8, 0x2b#8]
    · right; subst h6; exact ⟨_, rfl, by decide, by decide, by decide, by decide, by decide, by decide⟩
    left
    rw [if_neg h1, if_neg h2, if_neg h3, if_neg h4, if_neg h5, if_neg h6]
    refine ⟨rfl, ?_, ?_⟩
    · simp only [read, List.mem_cons, List.not_mem_nil, or_false]; tauto
    · simp only [write, List.mem_cons, List.not_mem_nil, or_false]; tauto
  clear_value read write app
  rcases hfl with ⟨hn, hr', hw'⟩ | ⟨fl, hf, e1, e2, e3, e4, e5, e6⟩
  · rcases hs.2.2 with ⟨h, _⟩ | ⟨fl, h, _⟩
    · exact ⟨fun _ => h, fun h => absurd h (fun h => h.elim hr' hw'), fun h => absurd h (fun h => h.elim hr' hw')⟩
    · rw [hn] at h; cases h
  · refine ⟨fun h => absurd e6 (fun e => e.elim h.1 h.2), ?_, ?_⟩
    · intro _ hnone hne hna
      rcases hs.2.2 with ⟨_, h⟩ | ⟨fl', hf', h⟩
      · rw [hf] at h; cases h
      · rw [hf] at hf'; cases hf'
        rcases h with ⟨h, _⟩ | ⟨_, _, _, _, _, h⟩
        · exact h
        · rw [hnone] at h
          rcases h with h | h
          · cases h
          · exact absurd (e4.1 h) (fun e => e.elim hne hna)
    · intro _ hex
      rcases hs.2.2 with ⟨_, h⟩ | ⟨fl', hf', h⟩
      · rw [hf] at h; cases h
      · rw [hf] at hf'; cases hf'
        rcases h with ⟨_, h1, h2⟩ | ⟨h1, h2, h3, h4, h5, _⟩
        · rcases hex with h | h
          · exact absurd h1 h
          · rw [e4.2 h] at h2; cases h2
        · refine ⟨h1, h2, ⟨_, h3, rfl, rfl, e1, e2, e5⟩, ?_, h4⟩
          show (fileNew st p m).1.os.fs p = _
          rw [h5]
          by_cases he : empty
          · rw [if_pos (e3.2 he), if_pos he]
          · rw [if_neg (fun h => he (e3.1 h)), if_neg he]; rfl

/-- C56: closing ends the access of this File, and only of this one; files keep their contents. Closed Files read and
write nothing. -/
theorem C56_close (st : State) (hr : FileReachable st) (i : Nat) :
    openOn (step st (.close i)).1 i = none ∧ (step st (.close i)).1.os.fs = st.os.fs ∧
    ∀ st' : State, openOn st' i = none → ∀ n k s,
      step st' (.read i n k) = (st', .err) ∧ step st' (.write i (.str s) k) = (st', .err) ∧
      step st' (.print i s k) = (st', .err) := by
  obtain ⟨_, _, h3, h4⟩ := close_spec hr.inv i
  refine ⟨by rw [show openOn (step st (.close i)).1 i = view (fileClose st i).1 i from rfl, h4, if_pos rfl], h3, ?_⟩
  intro st' hc n k s
  have hw : fileWrite st' i (.str s) k = (st', .err) := by
    unfold fileWrite payload openOn at *
    cases ho : st'.objs[i]? with
    | none => rfl
    | some o =>
      rw [ho] at hc
      have hc' : st'.os.desc o.fd = none := hc
      simp only [osWrite, hc', Option.bind_eq_bind, Option.bind_none]
  refine ⟨?_, hw, ?_⟩
  · show fileRead st' i n k = _
    unfold fileRead openOn at *
    cases ho : st'.objs[i]? with
    | none => rfl
    | some o =>
      rw [ho] at hc
      have hc' : st'.os.desc o.fd = none := hc
      simp only [osRead, hc', Option.bind_eq_bind, Option.bind_none]
  · show filePrint st' i s k = _
    unfold filePrint; rw [hw]

/-- C56: reading `n` bytes, `n > 0`, from a File open for reading, when the kernel does not report an error: at the end of
the file nil; otherwise the next bytes, at least one, at most `n`, and the position moves behind them. -/
theorem C56_read (st : State) (hr : FileReachable st) (i n k : Nat) (hn : 0 < n) (d : Desc) (hd : openOn st i = some d)
    (hrd : d.fl.rd = true) :
    let r := step st (.read i n (some k))
    r.1.os.fs = st.os.fs ∧
    ((contents st d.path).length ≤ d.off ∧ r.2 = .nil ∧ openOn r.1 i = some d ∨
     ∃ b rest, (contents st d.path).drop d.off = b ++ rest ∧ b ≠ [] ∧ b.length ≤ n ∧ r.2 = .bytes b ∧
      openOn r.1 i = some { d with off := d.off + b.length }) := by
  obtain ⟨_, _, h3, _, h5⟩ := read_spec hr.inv i n (some k)
  refine ⟨h3, ?_⟩
  rcases h5 with h | ⟨d', k', h1, h2, hk, r, h6, h7, h8⟩
  · exfalso
    unfold fileRead openOn at *
    cases ho : st.objs[i]? with
    | none => rw [ho] at hd; cases hd
    | some o =>
      rw [ho] at hd h
      have hd' : st.os.desc o.fd = some d := hd
      simp only [osRead, hd', Option.bind_eq_bind, Option.bind_some, hrd, if_true] at h
      have h2 := congrArg Prod.snd h
      change (if _ then Res.nil else Res.bytes _) = Res.err at h2
      split at h2 <;> cases h2
  · cases hk
    rw [show view st i = openOn st i from rfl, hd] at h1; cases h1
    change (fileRead st i n (some k)).2 = _ at h7
    by_cases hl : (contents st d.path).length ≤ d.off
    · left
      have hr0 : r = [] := by rw [h6]; unfold contents at hl; rw [List.drop_eq_nil_of_le hl]; simp
      subst hr0
      refine ⟨hl, h7, h8.trans ?_⟩
      simp
    · right
      have hdrop : ((contents st d.path).drop d.off).length ≠ 0 := by simp; omega
      have hlen : r.length = min (min n (k + 1)) ((contents st d.path).drop d.off).length := by
        rw [h6, List.length_take]; rfl
      refine ⟨r, ((contents st d.path).drop d.off).drop (min n (k + 1)), ?_, ?_, ?_, ?_, h8⟩
      · rw [h6]; exact (List.take_append_drop _ _).symm
      · intro h; rw [h] at hlen; simp only [List.length_nil] at hlen; omega
      · omega
      · refine h7.trans (if_neg ?_); omega

/-- C56: writing a string to a File open for writing, when the kernel does not report an error: an initial part of it is
written – at the end of the file in append mode, otherwise at the File's position –, the answer is the number of bytes
written, the position moves behind them, and no other file changes. -/
theorem C56_write (st : State) (hr : FileReachable st) (i k : Nat) (s : List (BitVec 8)) (d : Desc)
    (hd : openOn st i = some d) (hw : d.fl.wr = true)
    (hpos : d.fl.app = true ∨ d.off ≤ (contents st d.path).length) :
    let r := step st (.write i (.str s) (some k))
    let old := contents st d.path
    ∃ b rest, s = b ++ rest ∧ (s ≠ [] → b ≠ []) ∧ r.2 = .num b.length ∧
      ∃ pos, pos = (if d.fl.app = true then old.length else d.off) ∧
        contents r.1 d.path = old.take pos ++ b ++ old.drop (pos + b.length) ∧
        openOn r.1 i = some { d with off := pos + b.length } ∧ ∀ q, q ≠ d.path → r.1.os.fs q = st.os.fs q := by
  obtain ⟨_, _, _, h5⟩ := write_spec hr.inv i (.str s) (some k)
  rcases h5 with ⟨h0, h⟩ | ⟨s', d', k', hp, h1, h2, hk, h7, pos, h8, h9, h10, h11⟩
  · exfalso
    have hnum : ∃ n, (fileWrite st i (.str s) (some k)).2 = .num n := by
      unfold fileWrite openOn at *
      cases ho : st.objs[i]? with
      | none => rw [ho] at hd; cases hd
      | some o =>
        rw [ho] at hd
        have hd' : st.os.desc o.fd = some d := hd
        simp only [payload, osWrite, hd', Option.bind_eq_bind, Option.bind_some, hw, if_true]
        exact ⟨_, rfl⟩
    obtain ⟨n, hn⟩ := hnum
    rw [hn] at h
    rcases h with h | h <;> cases h
  · cases hk
    cases hp
    rw [show view st i = openOn st i from rfl, hd] at h1; cases h1
    refine ⟨s.take (k+1), s.drop (k+1), (List.take_append_drop _ _).symm, ?_, h7, pos, h8, ?_, h9, h11⟩
    · intro hs; cases s with
      | nil => exact absurd rfl hs
      | cons b s => simp
    · show ((fileWrite st i (.str s) (some k)).1.os.fs d.path).getD [] = _
      rw [h10]
      have hle : pos ≤ (contents st d.path).length := by
        rw [h8]
        split
        · exact Nat.le_refl _
        · rename_i hna; rcases hpos with h | h
          · exact absurd h hna
          · exact h
      show overwrite (contents st d.path) pos _ = _
      unfold overwrite
      rw [show pos - (contents st d.path).length = 0 by omega]
      simp

/-! ### Histories -/

/-- The bytes an operation with its result has sent to File `i`. -/
def sentBy (i : Nat) : Op → Res → List (BitVec 8)
  | .write j (.str s) _, .num n => if j = i then s.take n else []
  | .print j s (some k), .str [] => if j = i then s.take (k + 1) else []
  | _, _ => []

/-- The bytes an operation with its result has got from File `i`. -/
def gotBy (i : Nat) : Op → Res → List (BitVec 8)
  | .read j _ _, .bytes b => if j = i then b else []
  | _, _ => []

/-- An operation that does not change the file `p`, except that File `w` may write it strings. -/
def Quiet (w : Option Nat) (p : List (BitVec 8)) (st : State) : Op → Prop
  | .new q m => cname q ≠ p ∨ ∀ fl, modeFlags m = some fl → fl.trunc = false
  | .write j v _ => (some j = w ∧ ∃ s, v = .str s) ∨ ∀ d, openOn st j = some d → d.path ≠ p
  | .print j _ _ => some j = w ∨ ∀ d, openOn st j = some d → d.path ≠ p
  | _ => True

/-- All operations of a history are quiet. -/
def Quietly (w : Option Nat) (p : List (BitVec 8)) : State → List Op → Prop
  | _, [] => True
  | st, o :: os => Quiet w p st o ∧ Quietly w p (step st o).1 os

/-- All bytes sent to, or got from, a File in a history. -/
def sent (i : Nat) : List Op → List Res → List (BitVec 8)
  | o :: os, r :: rs => sentBy i o r ++ sent i os rs
  | _, _ => []
def got (i : Nat) : List Op → List Res → List (BitVec 8)
  | o :: os, r :: rs => gotBy i o r ++ got i os rs
  | _, _ => []

/-- File `i` is closed, or still open on `p` and ready to add at the end. -/
def AtEnd (st : State) (i : Nat) (p : List (BitVec 8)) : Prop :=
  openOn st i = none ∨ ∃ d, openOn st i = some d ∧ d.path = p ∧ (d.fl.app = true ∨ d.off = (contents st p).length)

theorem quiet_new {st : State} (hi : Inv st) {w : Option Nat} {p q m : List (BitVec 8)} (h : Quiet w p st (.new q m)) :
    contents (step st (.new q m)).1 p = contents st p := by
  rcases (new_spec hi q m).2.2 with ⟨h1, _⟩ | ⟨fl, hf, h2⟩
  · show contents (fileNew st q m).1 p = _; rw [h1]
  · rcases h2 with ⟨h1, _⟩ | ⟨_, _, _, h3, h4, _⟩
    · show contents (fileNew st q m).1 p = _; rw [h1]
    · by_cases hq : q.takeWhile (· ≠ 0#8) = p
      · rcases h with h | h
        · exact absurd hq h
        · show ((fileNew st q m).1.os.fs p).getD [] = _
          rw [hq] at h4
          rw [h4, h fl hf]; rfl
      · show ((fileNew st q m).1.os.fs p).getD [] = _
        rw [h3 p (fun e => hq e.symm)]; rfl

/-- One step with a single writer at the end of the file. -/
theorem quiet_step {st : State} (hi : Inv st) {i : Nat} (hlt : i < st.objs.length) {p : List (BitVec 8)}
    (ha : AtEnd st i p) (o : Op) (hq : Quiet (some i) p st o) :
    contents (step st o).1 p = contents st p ++ sentBy i o (step st o).2 ∧ AtEnd (step st o).1 i p ∧
      i < (step st o).1.objs.length := by
  have keep : ∀ st' : State, openOn st' i = openOn st i → contents st' p = contents st p → AtEnd st' i p := by
    intro st' h1 h2
    rcases ha with h | ⟨d, hd⟩
    · exact Or.inl (h1.trans h)
    · exact Or.inr ⟨d, by rw [h1, h2]; exact hd⟩
  have wr : ∀ (j : Nat) (v : Val) (k : Option Nat) (hq' : (j = i ∧ ∃ s, v = .str s) ∨ ∀ d, openOn st j = some d → d.path ≠ p),
      contents (fileWrite st j v k).1 p = contents st p ++ sentBy i (.write j v k) (fileWrite st j v k).2 ∧
      AtEnd (fileWrite st j v k).1 i p := by
    intro j v k hq'
    obtain ⟨_, _, h3, h4⟩ := write_spec hi j v k
    rcases h4 with ⟨h0, h⟩ | ⟨s, d, k', hp, h1, h2, hk, h7, pos, h8, h9, h10, h11⟩
    · rw [h0]
      refine ⟨?_, ha⟩
      rcases h with h | h <;> rw [h] <;> simp [sentBy]
    · by_cases hji : j = i
      · subst hji
        have hdp : d.path = p ∨ d.path ≠ p := Classical.em _
        rcases hq' with ⟨_, s', rfl⟩ | hq'
        · cases hp
          rcases ha with hn | ⟨d', e1, e2, e3⟩
          · rw [show view st j = openOn st j from rfl, hn] at h1; cases h1
          · rw [show view st j = openOn st j from rfl, e1] at h1; cases h1
            subst e2
            have hpe : pos = (contents st d.path).length := by
              rw [h8]; split
              · rfl
              · rename_i hna; rcases e3 with h | h
                · exact absurd h hna
                · exact h
            have hc : contents (fileWrite st j (.str s) k).1 d.path = contents st d.path ++ s.take (k' + 1) := by
              show ((fileWrite st j (.str s) k).1.os.fs d.path).getD [] = _
              rw [h10, hpe]; exact overwrite_end _ _
            refine ⟨?_, Or.inr ⟨_, h9, rfl, ?_⟩⟩
            · rw [hc, h7]
              simp only [sentBy, if_true, List.length_take]
              congr 1
              by_cases hl : k' + 1 ≤ s.length
              · rw [Nat.min_eq_left hl]
              · rw [Nat.min_eq_right (by omega), List.take_of_length_le (by omega), List.take_of_length_le (by omega)]
            · refine Or.inr ?_
              rw [hc, List.length_append, hpe]
        · have := hq' d h1
          have hne := this
          rcases ha with hn | ⟨d', e1, e2, e3⟩
          · rw [show view st j = openOn st j from rfl, hn] at h1; cases h1
          · rw [show view st j = openOn st j from rfl, e1] at h1; cases h1
            exact absurd e2 hne
      · have hne : d.path ≠ p := by
          rcases hq' with ⟨h, _⟩ | h
          · exact absurd h hji
          · exact h d h1
        have hc : contents (fileWrite st j v k).1 p = contents st p := by
          show ((fileWrite st j v k).1.os.fs p).getD [] = _
          rw [h11 p (Ne.symm hne)]; rfl
        refine ⟨?_, keep _ (h3 i (Ne.symm hji)) hc⟩
        rw [hc]
        have : sentBy i (.write j v k) (fileWrite st j v k).2 = [] := by
          rw [h7]; cases v <;> simp [sentBy, hji]
        rw [this, List.append_nil]
  cases o with
  | new q m =>
    have hc := quiet_new hi hq
    refine ⟨by rw [hc]; simp [sentBy], keep _ ((new_spec hi q m).2.1 i hlt) hc, ?_⟩
    show i < (fileNew st q m).1.objs.length
    rcases (new_spec hi q m).2.2 with ⟨h1, _⟩ | ⟨fl, _, ⟨h1, _⟩ | ⟨_, h1, _⟩⟩ <;> rw [h1]
    · exact hlt
    · exact hlt
    · omega
  | close j =>
    obtain ⟨_, h2, h3, h4⟩ := close_spec hi j
    have hc : contents (step st (.close j)).1 p = contents st p := by
      show ((fileClose st j).1.os.fs p).getD [] = _; rw [h3]; rfl
    refine ⟨by rw [hc]; simp [sentBy], ?_, by show i < (fileClose st j).1.objs.length; omega⟩
    by_cases hji : i = j
    · exact Or.inl ((h4 i).trans (if_pos hji))
    · exact keep _ ((h4 i).trans (if_neg hji)) hc
  | read j n k =>
    obtain ⟨_, h2, h3, h4, h5⟩ := read_spec hi j n k
    have hc : contents (step st (.read j n k)).1 p = contents st p := by
      show ((fileRead st j n k).1.os.fs p).getD [] = _; rw [h3]; rfl
    refine ⟨by rw [hc]; simp [sentBy], ?_, by show i < (fileRead st j n k).1.objs.length; omega⟩
    by_cases hji : i = j
    · subst hji
      rcases h5 with h | ⟨d, k', g1, _, _, r, g2, _, g3⟩
      · exact keep _ (by show view (fileRead st i n k).1 i = _; rw [h]; rfl) hc
      · rcases ha with hn | ⟨d', e1, e2, e3⟩
        · rw [show view st i = openOn st i from rfl, hn] at g1; cases g1
        · rw [show view st i = openOn st i from rfl, e1] at g1; cases g1
          refine Or.inr ⟨_, g3, e2, ?_⟩
          rcases e3 with h | h
          · exact Or.inl h
          · right
            have hr0 : r = [] := by
              rw [g2, e2]; unfold contents at h; rw [List.drop_eq_nil_of_le (by omega)]; simp
            rw [hc, hr0]; exact h
    · exact keep _ (h4 i hji) hc
  | write j v k =>
    have hq' : (j = i ∧ ∃ s, v = .str s) ∨ ∀ d, openOn st j = some d → d.path ≠ p := by
      rcases hq with ⟨h, hs⟩ | h
      · exact Or.inl ⟨Option.some.inj h, hs⟩
      · exact Or.inr h
    obtain ⟨a, b⟩ := wr j v k hq'
    exact ⟨a, b, by show i < (fileWrite st j v k).1.objs.length; rw [(write_spec hi j v k).2.1]; exact hlt⟩
  | print j s k =>
    have hq' : (j = i ∧ ∃ s', Val.str s = .str s') ∨ ∀ d, openOn st j = some d → d.path ≠ p := by
      rcases hq with h | h
      · exact Or.inl ⟨Option.some.inj h, s, rfl⟩
      · exact Or.inr h
    obtain ⟨a, b⟩ := wr j (.str s) k hq'
    obtain ⟨p1, p2⟩ := print_eq st j s k
    refine ⟨?_, by show AtEnd (filePrint st j s k).1 i p; rw [p1]; exact b,
      by show i < (filePrint st j s k).1.objs.length; rw [p1, (write_spec hi j _ k).2.1]; exact hlt⟩
    show contents (filePrint st j s k).1 p = contents st p ++ sentBy i (.print j s k) (filePrint st j s k).2
    rw [p1, a]
    congr 1
    rcases p2 with ⟨n, q1, q2⟩ | ⟨q1, q2⟩
    · rw [q1, q2]
      rcases (write_spec hi j (.str s) k).2.2.2 with ⟨_, h⟩ | ⟨s', d, k', hp, _, _, hk, h7, _⟩
      · rw [q1] at h; rcases h with h | h <;> cases h
      · cases hp; subst hk
        rw [q1] at h7; cases h7
        simp only [sentBy, List.length_take]
        by_cases hji : j = i
        · rw [if_pos hji, if_pos hji]
          by_cases hl : k' + 1 ≤ s.length
          · rw [Nat.min_eq_left hl]
          · rw [Nat.min_eq_right (by omega), List.take_of_length_le (by omega), List.take_of_length_le (by omega)]
        · rw [if_neg hji, if_neg hji]
    · rw [q2]
      rcases (write_spec hi j (.str s) k).2.2.2 with ⟨_, h⟩ | ⟨s', d, k', hp, _, _, hk, h7, _⟩
      · rcases h with h | h <;> rw [h] <;> cases k <;> rfl
      · exact absurd h7 (q1 _)

theorem sent_run (ops : List Op) : ∀ {st : State}, Inv st → ∀ {i : Nat}, i < st.objs.length → ∀ {p : List (BitVec 8)},
    AtEnd st i p → Quietly (some i) p st ops → contents (run st ops).1 p = contents st p ++ sent i ops (run st ops).2 := by
  induction ops with
  | nil => intro st _ i _ p _ _; simp [run, sent]
  | cons o os ih =>
    intro st hi i hlt p ha hq
    obtain ⟨q1, q2⟩ := hq
    obtain ⟨a, b, c⟩ := quiet_step hi hlt ha o q1
    have := ih (step_inv hi o) c b q2
    show contents (run (step st o).1 os).1 p = contents st p ++ (sentBy i o (step st o).2 ++ sent i os (run (step st o).1 os).2)
    rw [this, a, List.append_assoc]

/-- C56: while a single File adds to a file – it was opened with "w" or "a", or stands at the end –, after any history
of operations on this and other Files, with whatever short writes and errors, the file holds what it held before
followed by everything written through that File, in order. -/
theorem C56_writer (st : State) (hr : FileReachable st) (i : Nat) (d : Desc) (hd : openOn st i = some d)
    (hend : d.fl.app = true ∨ d.off = (contents st d.path).length) (ops : List Op)
    (hq : Quietly (some i) d.path st ops) :
    contents (run st ops).1 d.path = contents st d.path ++ sent i ops (run st ops).2 := by
  refine sent_run ops hr.inv ?_ (Or.inr ⟨d, hd, rfl, hend⟩) hq
  by_cases h : i < st.objs.length
  · exact h
  · unfold openOn at hd
    rw [List.getElem?_eq_none (by omega)] at hd; cases hd

/-- Nobody writes: nothing changes; `got` is what lies between the positions. -/
theorem got_run (ops : List Op) : ∀ {st : State}, Inv st → ∀ {i : Nat}, i < st.objs.length → ∀ {d : Desc},
    openOn st i = some d → Quietly none d.path st ops →
    contents (run st ops).1 d.path = contents st d.path ∧
    ∃ rest, (contents st d.path).drop d.off = got i ops (run st ops).2 ++ rest ∧
      (openOn (run st ops).1 i = none ∨ ∃ d', openOn (run st ops).1 i = some d' ∧ d'.path = d.path ∧ d'.fl = d.fl ∧
        rest = (contents st d.path).drop d'.off) := by
  have closed : ∀ (ops : List Op) {st : State}, Inv st → ∀ {i : Nat}, i < st.objs.length → openOn st i = none →
      ∀ {p : List (BitVec 8)}, Quietly none p st ops → got i ops (run st ops).2 = [] ∧ openOn (run st ops).1 i = none ∧
        contents (run st ops).1 p = contents st p := by
    intro ops
    induction ops with
    | nil => intro st _ i _ h p _; exact ⟨rfl, h, rfl⟩
    | cons o os ih =>
      intro st hi i hlt hn p hq
      obtain ⟨q1, q2⟩ := hq
      have a1 : AtEnd st i p := Or.inl hn
      have hq1 : Quiet (some i) p st o := by
        cases o <;> simp only [Quiet] at q1 ⊢
        · exact q1
        · rcases q1 with ⟨h, _⟩ | h
          · cases h
          · exact Or.inr h
        · rcases q1 with h | h
          · cases h
          · exact Or.inr h
      obtain ⟨b1, b2, b3⟩ := quiet_step hi hlt a1 o hq1
      have hstay : openOn (step st o).1 i = none := by
        by_cases ht : Op.target o = some i
        · cases o with
          | new q m => cases ht
          | close j => cases ht; exact ((close_spec hi i).2.2.2 i).trans (if_pos rfl)
          | read j n k =>
            cases ht
            rcases (read_spec hi i n k).2.2.2.2 with h | ⟨d, k', g1, _⟩
            · show view (fileRead st i n k).1 i = none; rw [h]; exact hn
            · rw [show view st i = openOn st i from rfl, hn] at g1; cases g1
          | write j v k =>
            cases ht
            rcases (write_spec hi i v k).2.2.2 with ⟨h, _⟩ | ⟨s, d, k', _, g1, _⟩
            · show view (fileWrite st i v k).1 i = none; rw [h]; exact hn
            · rw [show view st i = openOn st i from rfl, hn] at g1; cases g1
          | print j s k =>
            cases ht
            rcases (write_spec hi i (.str s) k).2.2.2 with ⟨h, _⟩ | ⟨s, d, k', _, g1, _⟩
            · show view (filePrint st i s k).1 i = none; rw [(print_eq st i s k).1, h]; exact hn
            · rw [show view st i = openOn st i from rfl, hn] at g1; cases g1
        · have hne : ∀ j : Nat, some j ≠ some i → i ≠ j := by rintro j h rfl; exact h rfl
          cases o with
          | new q m => exact ((new_spec hi q m).2.1 i hlt).trans hn
          | close j => exact (((close_spec hi j).2.2.2 i).trans (if_neg (hne j ht))).trans hn
          | read j n k => exact ((read_spec hi j n k).2.2.2.1 i (hne j ht)).trans hn
          | write j v k => exact ((write_spec hi j v k).2.2.1 i (hne j ht)).trans hn
          | print j s k =>
            show view (filePrint st j s k).1 i = none
            rw [(print_eq st j s k).1]
            exact ((write_spec hi j (.str s) k).2.2.1 i (hne j ht)).trans hn
      have hsent : contents (step st o).1 p = contents st p := by
        rw [b1]
        have : sentBy i o (step st o).2 = [] := by
          cases o with
          | write j v k =>
            cases v with
            | str s =>
              by_cases hji : j = i
              · subst hji
                rcases (write_spec hi j (.str s) k).2.2.2 with ⟨_, h⟩ | ⟨s, d, k', _, g1, _⟩
                · show sentBy j _ (fileWrite st j (.str s) k).2 = []
                  rcases h with h | h <;> rw [h] <;> rfl
                · rw [show view st j = openOn st j from rfl, hn] at g1; cases g1
              · show sentBy i _ (fileWrite st j (.str s) k).2 = []
                generalize (fileWrite st j (.str s) k).2 = r
                cases r <;> simp [sentBy, hji]
            | _ => rfl
          | print j s k =>
            by_cases hji : j = i
            · subst hji
              rcases (write_spec hi j (.str s) k).2.2.2 with ⟨_, h⟩ | ⟨s, d, k', _, g1, _⟩
              · show sentBy j _ (filePrint st j s k).2 = []
                rcases (print_eq st j s k).2 with ⟨n, q, _⟩ | ⟨_, q⟩
                · rw [q] at h; rcases h with h | h <;> cases h
                · rw [q]; rcases h with h | h <;> rw [h] <;> cases k <;> rfl
              · rw [show view st j = openOn st j from rfl, hn] at g1; cases g1
            · show sentBy i _ (filePrint st j s k).2 = []
              generalize (filePrint st j s k).2 = r
              cases k <;> cases r <;> simp only [sentBy] <;> (rename_i x; cases x <;> simp [hji])
          | _ => rfl
        rw [this, List.append_nil]
      obtain ⟨c1, c2, c3⟩ := ih (step_inv hi o) b3 hstay q2
      refine ⟨?_, c2, c3.trans hsent⟩
      show gotBy i o (step st o).2 ++ got i os (run (step st o).1 os).2 = []
      rw [c1, List.append_nil]
      cases o with
      | read j n k =>
        by_cases hji : j = i
        · subst hji
          rcases (read_spec hi j n k).2.2.2.2 with h | ⟨d, k', g1, _⟩
          · show gotBy j _ (fileRead st j n k).2 = []; rw [h]; rfl
          · rw [show view st j = openOn st j from rfl, hn] at g1; cases g1
        · show gotBy i _ (fileRead st j n k).2 = []
          generalize (fileRead st j n k).2 = r
          cases r <;> simp [gotBy, hji]
      | _ => rfl
  induction ops with
  | nil => intro st _ i _ d hd _; exact ⟨rfl, _, rfl, Or.inr ⟨d, hd, rfl, rfl, rfl⟩⟩
  | cons o os ih =>
    intro st hi i hlt d hd hq
    obtain ⟨q1, q2⟩ := hq
    -- the other cases leave position and contents alone
    have stay : openOn (step st o).1 i = some d → contents (step st o).1 d.path = contents st d.path →
        i < (step st o).1.objs.length → gotBy i o (step st o).2 = [] →
        contents (run st (o :: os)).1 d.path = contents st d.path ∧
        ∃ rest, (contents st d.path).drop d.off = got i (o :: os) (run st (o :: os)).2 ++ rest ∧
          (openOn (run st (o :: os)).1 i = none ∨ ∃ d', openOn (run st (o :: os)).1 i = some d' ∧ d'.path = d.path ∧
            d'.fl = d.fl ∧ rest = (contents st d.path).drop d'.off) := by
      intro h1 h2 h3 h4
      obtain ⟨e1, rest, e2, e3⟩ := ih (step_inv hi o) h3 h1 q2
      rw [h2] at e1 e2 e3
      refine ⟨e1, rest, ?_, e3⟩
      show _ = (gotBy i o (step st o).2 ++ got i os (run (step st o).1 os).2) ++ rest
      rw [h4, List.nil_append]; exact e2
    have wcase : ∀ (j : Nat) (v : Val) (k : Option Nat), (∀ d', openOn st j = some d' → d'.path ≠ d.path) →
        openOn (fileWrite st j v k).1 i = some d ∧ contents (fileWrite st j v k).1 d.path = contents st d.path ∧
        i < (fileWrite st j v k).1.objs.length := by
      intro j v k hne
      have hji : i ≠ j := by rintro rfl; exact hne d hd rfl
      obtain ⟨_, w2, w3, w4⟩ := write_spec hi j v k
      refine ⟨(w3 i hji).trans hd, ?_, by omega⟩
      rcases w4 with ⟨h, _⟩ | ⟨s, d', k', _, g1, _, _, _, _, _, _, _, g2⟩
      · rw [h]
      · show ((fileWrite st j v k).1.os.fs d.path).getD [] = _
        rw [g2 d.path (Ne.symm (hne d' g1))]; rfl
    cases o with
    | new q m =>
      refine stay (((new_spec hi q m).2.1 i hlt).trans hd) (quiet_new hi q1) ?_ rfl
      show i < (fileNew st q m).1.objs.length
      rcases (new_spec hi q m).2.2 with ⟨h1, _⟩ | ⟨fl, _, ⟨h1, _⟩ | ⟨_, h1, _⟩⟩ <;> rw [h1]
      · exact hlt
      · exact hlt
      · omega
    | close j =>
      obtain ⟨hinv, h2, h3, h4⟩ := close_spec hi j
      have hc : contents (step st (.close j)).1 d.path = contents st d.path := by
        show ((fileClose st j).1.os.fs _).getD [] = _; rw [h3]; rfl
      have hl : i < (step st (.close j)).1.objs.length := by show i < (fileClose st j).1.objs.length; omega
      by_cases hji : i = j
      · have hn : openOn (step st (.close j)).1 i = none := (h4 i).trans (if_pos hji)
        obtain ⟨c1, c2, c3⟩ := closed os (step_inv hi (.close j)) hl hn q2
        refine ⟨c3.trans hc, (contents st d.path).drop d.off, ?_, Or.inl c2⟩
        show _ = ([] ++ got i os (run (step st (.close j)).1 os).2) ++ _
        rw [c1]; rfl
      · exact stay (((h4 i).trans (if_neg hji)).trans hd) hc hl rfl
    | read j n k =>
      obtain ⟨hinv, h2, h3, h4, h5⟩ := read_spec hi j n k
      have hc : contents (step st (.read j n k)).1 d.path = contents st d.path := by
        show ((fileRead st j n k).1.os.fs _).getD [] = _; rw [h3]; rfl
      have hl : i < (step st (.read j n k)).1.objs.length := by show i < (fileRead st j n k).1.objs.length; omega
      by_cases hji : j = i
      · subst hji
        rcases h5 with h | ⟨d1, k', g1, g2, _, r, g3, g4, g5⟩
        · exact stay (by show view (fileRead st j n k).1 j = _; rw [h]; exact hd) hc hl
            (by show gotBy j _ (fileRead st j n k).2 = []; rw [h]; rfl)
        · rw [show view st j = openOn st j from rfl, hd] at g1; cases g1
          have hgot : gotBy j (.read j n k) (step st (.read j n k)).2 = r := by
            show gotBy j _ (fileRead st j n k).2 = r
            rw [g4]
            by_cases hr0 : r.length = 0
            · rw [if_pos hr0]; exact (List.eq_nil_of_length_eq_zero hr0).symm
            · rw [if_neg hr0]; simp [gotBy]
          obtain ⟨e1, rest, e2, e3⟩ := ih (step_inv hi (.read j n k)) hl g5 q2
          simp only at e1 e2 e3
          rw [hc] at e1 e2 e3
          refine ⟨e1, rest, ?_, e3⟩
          show _ = (gotBy j _ (step st (.read j n k)).2 ++ got j os (run (step st (.read j n k)).1 os).2) ++ rest
          rw [hgot, List.append_assoc, ← e2, ← List.drop_drop, g3]
          have := List.take_append_drop (min n (k' + 1)) ((contents st d.path).drop d.off)
          rw [show (st.os.fs d.path).getD [] = contents st d.path from rfl]
          rw [List.length_take]
          generalize hL : (contents st d.path).drop d.off = L at *
          generalize min n (k' + 1) = m at *
          by_cases hm : m ≤ L.length
          · rw [Nat.min_eq_left hm]; exact this.symm
          · rw [Nat.min_eq_right (by omega), List.drop_length, List.append_nil, List.take_of_length_le (by omega)]
      · refine stay ((h4 i (Ne.symm hji)).trans hd) hc hl ?_
        show gotBy i _ (fileRead st j n k).2 = []
        generalize (fileRead st j n k).2 = r
        cases r <;> simp [gotBy, hji]
    | write j v k =>
      have hne : ∀ d', openOn st j = some d' → d'.path ≠ d.path := by
        rcases q1 with ⟨h, _⟩ | h
        · cases h
        · exact h
      obtain ⟨a, b, c⟩ := wcase j v k hne
      exact stay a b c rfl
    | print j s k =>
      have hne : ∀ d', openOn st j = some d' → d'.path ≠ d.path := by
        rcases q1 with h | h
        · cases h
        · exact h
      obtain ⟨a, b, c⟩ := wcase j (.str s) k hne
      rw [← (print_eq st j s k).1] at a b c
      exact stay a b c rfl

/-- C56: while nobody changes a file, the reads of a File open on it, whatever their sizes and however short, give its
contents from the File's position on, in order, without gaps or repetitions. -/
theorem C56_reader (st : State) (hr : FileReachable st) (i : Nat) (d : Desc) (hd : openOn st i = some d)
    (ops : List Op) (hq : Quietly none d.path st ops) :
    contents (run st ops).1 d.path = contents st d.path ∧
    ∃ rest, (contents st d.path).drop d.off = got i ops (run st ops).2 ++ rest ∧
      (openOn (run st ops).1 i = none ∨ ∃ d', openOn (run st ops).1 i = some d' ∧ d'.path = d.path ∧ d'.fl = d.fl ∧
        rest = (contents st d.path).drop d'.off) := by
  refine got_run ops hr.inv ?_ hd hq
  by_cases h : i < st.objs.length
  · exact h
  · unfold openOn at hd
    rw [List.getElem?_eq_none (by omega)] at hd; cases hd

theorem FileReachable.step {st : State} (h : FileReachable st) (o : Op) : FileReachable (step st o).1 := by
  obtain ⟨os, l, rfl⟩ := h
  refine ⟨os, l ++ [o], ?_⟩
  have : ∀ (l : List Op) (s : State), (run s (l ++ [o])).1 = (File.step (run s l).1 o).1 := by
    intro l
    induction l with
    | nil => intro s; rfl
    | cons x l ih => intro s; exact ih _
  exact this l _

theorem FileReachable.run {st : State} (h : FileReachable st) (ops : List Op) : FileReachable (run st ops).1 := by
  induction ops generalizing st with
  | nil => exact h
  | cons o os ih => exact ih (h.step o)

/-- C56: write, then read. Open a file with "w", write strings to it in any number of operations – mixed with any
operations that leave this file alone –, open it again with "r" and read it piece by piece until `read` answers nil
(for a positive number of bytes): the pieces are, put together, all that was written. -/
theorem C56_roundtrip (st : State) (hr : FileReachable st) (p : List (BitVec 8)) (hp : 0#8 ∉ p) (i j n : Nat)
    (k : Option Nat) (ops₁ ops₂ : List Op)
    (h₁ : (step st (.new p [0x77#8])).2 = .file i) (q₁ : Quietly (some i) p (step st (.new p [0x77#8])).1 ops₁)
    (h₂ : (step (run (step st (.new p [0x77#8])).1 ops₁).1 (.new p [0x72#8])).2 = .file j)
    (q₂ : Quietly none p (step (run (step st (.new p [0x77#8])).1 ops₁).1 (.new p [0x72#8])).1 ops₂) (hn : 0 < n)
    (hend : (step (run (step (run (step st (.new p [0x77#8])).1 ops₁).1 (.new p [0x72#8])).1 ops₂).1 (.read j n k)).2 = .nil) :
    got j ops₂ (run (step (run (step st (.new p [0x77#8])).1 ops₁).1 (.new p [0x72#8])).1 ops₂).2 =
      sent i ops₁ (run (step st (.new p [0x77#8])).1 ops₁).2 := by
  generalize hs1 : (step st (.new p [0x77#8])).1 = st1 at *
  have r1 : FileReachable st1 := hs1 ▸ hr.step _
  -- the writer
  obtain ⟨_, _, o3⟩ := C56_open st hr p [0x77#8] (by decide) hp
  obtain ⟨o4, _, ⟨d, o5, o6, o7, _, _, _⟩, o8, _⟩ := o3 (by decide) (by right; left; decide)
  rw [h₁] at o4; cases o4
  rw [hs1] at o5 o8
  rw [if_pos (by decide)] at o8
  have hc1 : contents st1 p = [] := by unfold contents; rw [o8]; rfl
  have w := C56_writer st1 r1 _ d o5 (Or.inr (by rw [o6, hc1, o7]; rfl)) ops₁ (by rw [o6]; exact q₁)
  rw [o6, hc1, List.nil_append] at w
  -- the reader
  generalize hs2 : (run st1 ops₁).1 = st2 at *
  have r2 : FileReachable st2 := hs2 ▸ r1.run _
  generalize hs3 : (step st2 (.new p [0x72#8])).1 = st3 at *
  have r3 : FileReachable st3 := hs3 ▸ r2.step _
  obtain ⟨_, p2, p3⟩ := C56_open st2 r2 p [0x72#8] (by decide) hp
  have hex : st2.os.fs p ≠ none := by
    intro hnone
    have := p2 (by decide) hnone (by decide) (by decide)
    rw [this] at h₂; cases h₂
  obtain ⟨p4, _, ⟨d', p5, p6, p7, p8, _, _⟩, p9, _⟩ := p3 (by decide) (Or.inl hex)
  rw [h₂] at p4; cases p4
  rw [hs3] at p5 p9
  rw [if_neg (by decide)] at p9
  have hc3 : contents st3 p = contents st2 p := by unfold contents at *; rw [p9]; rfl
  obtain ⟨g1, rest, g2, g3⟩ := C56_reader st3 r3 _ d' p5 ops₂ (by rw [p6]; exact q₂)
  rw [p6, p7, List.drop_zero, hc3, w] at g2
  generalize hs4 : (run st3 ops₂).1 = st4 at *
  have r4 : FileReachable st4 := hs4 ▸ r3.run _
  rcases g3 with g3 | ⟨d'', g3, g4, g5, g6⟩
  · have := (C56_close st4 r4 st2.objs.length).2.2 st4 g3 n k []
    rw [this.1] at hend; cases hend
  · cases k with
    | none =>
      exfalso
      rcases (read_spec r4.inv st2.objs.length n none).2.2.2.2 with h | ⟨_, _, _, _, h, _⟩
      · change (fileRead st4 st2.objs.length n none).2 = .nil at hend
        rw [h] at hend; cases hend
      · cases h
    | some k =>
      obtain ⟨_, h | ⟨b, _, _, _, _, h, _⟩⟩ := C56_read st4 r4 st2.objs.length n k hn d'' g3 (by rw [g5]; exact p8.2 (by decide))
      · obtain ⟨h, _, _⟩ := h
        have : rest = [] := by
          rw [g6, ← g1, List.drop_eq_nil_of_le]
          rw [g4] at h; exact h
        rw [this, List.append_nil] at g2
        exact g2.symm
      · rw [hend] at h; cases h

/-- Bytes an operation with its result has sent to file `p`. -/
def sentTo (p : List (BitVec 8)) (st : State) (o : Op) (r : Res) : List (BitVec 8) :=
  match Op.target o with
  | some i => if (openOn st i).map (·.path) = some p then sentBy i o r else []
  | none => []

/-- All bytes sent to a file in a history, in order. -/
def sentAll (p : List (BitVec 8)) : State → List Op → List (BitVec 8)
  | _, [] => []
  | st, o :: os => sentTo p st o (step st o).2 ++ sentAll p (step st o).1 os

/-- An operation that changes file `p`, if at all, by writing strings in append mode. -/
def Appending (p : List (BitVec 8)) (st : State) : Op → Prop
  | .new q m => cname q ≠ p ∨ ∀ fl, modeFlags m = some fl → fl.trunc = false
  | .write j v _ => ∀ d, openOn st j = some d → d.path = p → d.fl.app = true ∧ ∃ s, v = .str s
  | .print j _ _ => ∀ d, openOn st j = some d → d.path = p → d.fl.app = true
  | _ => True
def AllAppending (p : List (BitVec 8)) : State → List Op → Prop
  | _, [] => True
  | st, o :: os => Appending p st o ∧ AllAppending p (step st o).1 os

/-- C56: any number of Files in append mode may write to one file in any interleaving: nothing is lost or overwritten,
the file grows by the pieces in the order in which they were written. -/
theorem C56_append (ops : List Op) (st : State) (hr : FileReachable st) (p : List (BitVec 8))
    (h : AllAppending p st ops) : contents (run st ops).1 p = contents st p ++ sentAll p st ops := by
  induction ops generalizing st with
  | nil => simp [run, sentAll]
  | cons o os ih =>
    obtain ⟨h1, h2⟩ := h
    have hi := hr.inv
    have one : contents (step st o).1 p = contents st p ++ sentTo p st o (step st o).2 := by
      -- a writer on `p` is at the end, others do not touch it
      have go : ∀ j, Op.target o = some j → ∀ d, openOn st j = some d → d.path = p → AtEnd st j p →
          Quiet (some j) p st o → contents (step st o).1 p = contents st p ++ sentTo p st o (step st o).2 := by
        intro j hj d hd hp ha hq
        have hlt : j < st.objs.length := by
          by_cases h : j < st.objs.length
          · exact h
          · unfold openOn at hd; rw [List.getElem?_eq_none (by omega)] at hd; cases hd
        rw [(quiet_step hi hlt ha o hq).1]
        simp only [sentTo, hj, hd, Option.map_some, hp, if_true]
      cases o with
      | new q m => rw [quiet_new hi (w := none) h1]; simp [sentTo, Op.target]
      | close j =>
        show ((fileClose st j).1.os.fs p).getD [] = _
        rw [(close_spec hi j).2.2.1]
        simp [sentTo, Op.target, sentBy, contents]
      | read j n k =>
        show ((fileRead st j n k).1.os.fs p).getD [] = _
        rw [(read_spec hi j n k).2.2.1]
        simp [sentTo, Op.target, sentBy, contents]
      | write j v k =>
        by_cases hj : (openOn st j).map (·.path) = some p
        · obtain ⟨d, hd, hp⟩ := Option.map_eq_some_iff.1 hj
          obtain ⟨a1, a2⟩ := h1 d hd hp
          exact go j rfl d hd hp (Or.inr ⟨d, hd, hp, Or.inl a1⟩) (Or.inl ⟨rfl, a2⟩)
        · have : sentTo p st (.write j v k) (step st (.write j v k)).2 = [] := by simp only [sentTo, Op.target, if_neg hj]
          rw [this, List.append_nil]
          rcases (write_spec hi j v k).2.2.2 with ⟨h, _⟩ | ⟨s, d, k', _, g1, _, _, _, _, _, _, _, g2⟩
          · show contents (fileWrite st j v k).1 p = _; rw [h]
          · show ((fileWrite st j v k).1.os.fs p).getD [] = _
            rw [g2 p]
            · rfl
            · rintro rfl; exact hj (by rw [show openOn st j = view st j from rfl, g1]; rfl)
      | print j s k =>
        by_cases hj : (openOn st j).map (·.path) = some p
        · obtain ⟨d, hd, hp⟩ := Option.map_eq_some_iff.1 hj
          exact go j rfl d hd hp (Or.inr ⟨d, hd, hp, Or.inl (h1 d hd hp)⟩) (Or.inl rfl)
        · have : sentTo p st (.print j s k) (step st (.print j s k)).2 = [] := by simp only [sentTo, Op.target, if_neg hj]
          rw [this, List.append_nil]
          show contents (filePrint st j s k).1 p = _
          rw [(print_eq st j s k).1]
          rcases (write_spec hi j (.str s) k).2.2.2 with ⟨h, _⟩ | ⟨s, d, k', _, g1, _, _, _, _, _, _, _, g2⟩
          · rw [h]
          · show ((fileWrite st j _ k).1.os.fs p).getD [] = _
            rw [g2 p]
            · rfl
            · rintro rfl; exact hj (by rw [show openOn st j = view st j from rfl, g1]; rfl)
    show contents (run (step st o).1 os).1 p = contents st p ++ (sentTo p st o (step st o).2 ++ sentAll p (step st o).1 os)
    rw [ih (step st o).1 (hr.step o) h2, one, List.append_assoc]

/-- No files, descriptors 0-2 taken. -/
def fresh : State :=
  { os := { fs := fun _ => none, fds := [some ⟨[], 0, ⟨true, true, false, false, false⟩⟩, some ⟨[], 0, ⟨true, true, false, false, false⟩⟩,
      some ⟨[], 0, ⟨true, true, false, false, false⟩⟩] }, objs := [] }

/-- A concrete history for C56_roundtrip: "f" is written with a short write ("hel", then "lo"), and read back in pieces,
while another file is written. -/
example :
    let p := [0x66#8]
    let o1 := [Op.write 0 (.str [0x68, 0x65, 0x6c]) (some 7), .new [0x67] [0x77], .write 1 (.str [0x21]) (some 0),
      .print 0 [0x6c, 0x6f, 0x3f] (some 1), .close 0]
    let o2 := [Op.read 2 3 (some 1), .read 2 10 (some 9), .read 2 10 none]
    let st1 := (step fresh (.new p [0x77])).1
    let st3 := (step (run st1 o1).1 (.new p [0x72])).1
    (step fresh (.new p [0x77])).2 = .file 0 ∧ (step (run st1 o1).1 (.new p [0x72])).2 = .file 2 ∧
    Quietly (some 0) p st1 o1 ∧ Quietly none p st3 o2 ∧
    (step (run st3 o2).1 (.read 2 5 (some 0))).2 = .nil ∧
    got 2 o2 (run st3 o2).2 = [0x68, 0x65, 0x6c, 0x6c, 0x6f] := by
  refine ⟨by decide, by decide, ?_, ?_, by decide, by decide⟩
  · refine ⟨Or.inl ⟨rfl, _, rfl⟩, Or.inl (by decide), Or.inr ?_, Or.inl rfl, trivial, trivial⟩
    intro d hd
    have hd' := hd.symm.trans (by decide : _ = some (⟨[0x67], 0, ⟨false, true, true, true, false⟩⟩ : Desc))
    cases hd'; decide
  · exact ⟨trivial, trivial, trivial, trivial⟩

/-- C56 (refuted for integers and Bytes, which `write` documents): writing the integer `i` writes the eight bytes of
4 i + 3 – the boxed number is boxed again. -/
theorem C56_refuted_int (st : State) (i : Nat) (n : Int) (k : Option Nat) :
    step st (.write i (.int n) k) = step st (.write i (.str (le64 (BitVec.ofInt 64 (4 * n + 3)))) k) := by
  show fileWrite st i (.int n) k = fileWrite st i (.str _) k
  have : pnNum (pnNum n).toInt = BitVec.ofInt 64 (4 * n + 3) := by
    have e : BitVec.ofInt 64 (4 * n + 3) = 4#64 * BitVec.ofInt 64 n + 3#64 := by
      rw [BitVec.ofInt_add, BitVec.ofInt_mul]; rfl
    rw [e]
    simp only [pnNum, BitVec.ofInt_toInt]
    generalize BitVec.ofInt 64 n = x
    apply BitVec.eq_of_toNat_eq
    simp [BitVec.toNat_add, BitVec.toNat_mul, BitVec.toNat_shiftLeft, Nat.shiftLeft_eq]
    omega
  unfold fileWrite
  simp only [payload, this]

/-- C56 (refuted): writing a Bytes object of `n` bytes writes 2 n + 1: its contents, the NUL behind it, and `n` more bytes
of whatever lies behind in memory – the boxed length is taken for the length. -/
theorem C56_refuted_bytes (st : State) (i : Nat) (s : List (BitVec 8)) (hs : s.length < 2^62) (after : Nat → BitVec 8)
    (k : Option Nat) :
    step st (.write i (.bytes s after) k) =
      step st (.write i (.str (s ++ [0#8] ++ (List.range s.length).map fun j => after (s.length + 1 + j))) k) := by
  show fileWrite st i (.bytes s after) k = fileWrite st i (.str _) k
  have hlen : (pnNum (s.length : Int)).toNat = s.length + 1 + s.length := by
    simp only [pnNum, BitVec.ofInt_natCast, BitVec.toNat_add, BitVec.toNat_shiftLeft, BitVec.toNat_ofNat, Nat.shiftLeft_eq]
    omega
  have : (List.range (pnNum (s.length : Int)).toNat).map (fun j => Str.cmem s after j) =
      s ++ [0#8] ++ (List.range s.length).map fun j => after (s.length + 1 + j) := by
    rw [hlen, List.range_add, List.range_add, List.map_append, List.map_append]
    congr 1
    · congr 1
      · apply List.ext_getElem
        · simp
        · intro n h1 h2; simp [Str.cmem, h2]
      · simp [Str.cmem]
    · rw [List.map_map]
      apply List.map_congr_left
      intro a _
      simp only [Function.comp_apply, Str.cmem]
      rw [dif_neg (by omega), if_neg (by omega)]
  unfold fileWrite
  simp only [payload, this]

/-- Writing "ab" as Bytes to a new file leaves five bytes in it. -/
example : contents (run fresh [.new [0x66#8] [0x77], .write 0 (.bytes [0x61, 0x62] (fun _ => 0xEE)) (some 9)]).1 [0x66] =
    [0x61, 0x62, 0, 0xEE, 0xEE] := by decide

/-- C56 (refuted): a `read` of no bytes answers nil, as at the end of the file, although there is more to read. -/
theorem C56_refuted_read0 (st : State) (hr : FileReachable st) (i k : Nat) (d : Desc) (hd : openOn st i = some d)
    (hrd : d.fl.rd = true) : (step st (.read i 0 (some k))).2 = .nil := by
  unfold openOn at hd
  show (fileRead st i 0 (some k)).2 = .nil
  unfold fileRead
  cases ho : st.objs[i]? with
  | none => rw [ho] at hd; cases hd
  | some o =>
    rw [ho] at hd
    have hd' : st.os.desc o.fd = some d := hd
    simp [osRead, hd', hrd]

/-! # C57: lines of standard input, the environment -/

theorem fgets_spec (n : Nat) (s : List (BitVec 8)) :
    (fgetsLoop n s).1 ++ (fgetsLoop n s).2 = s ∧ (fgetsLoop n s).1.length ≤ n ∧
    (∀ l b r, (fgetsLoop n s).1 = l ++ b :: r → b = 0x0a#8 → r = []) ∧
    ((fgetsLoop n s).2 = [] ∨ (fgetsLoop n s).1.length = n ∨ (fgetsLoop n s).1.getLast? = some 0x0a#8) ∧
    (0 < n → s ≠ [] → (fgetsLoop n s).1 ≠ []) := by
  induction n generalizing s with
  | zero => simp [fgetsLoop]
  | succ n ih =>
    cases s with
    | nil => simp [fgetsLoop]
    | cons b s =>
      by_cases hb : b = 0x0a#8
      · subst hb
        simp only [fgetsLoop, if_true]
        refine ⟨rfl, by simp, ?_, Or.inr (Or.inr rfl), by simp⟩
        intro l b r h _
        cases l with
        | nil => simp at h; exact h.2
        | cons x l => simp at h
      · obtain ⟨h1, h2, h3, h4, _⟩ := ih s
        simp only [fgetsLoop, if_neg hb]
        refine ⟨by simp [h1], by simp; exact h2, ?_, ?_, by simp⟩
        · intro l c r h hc
          cases l with
          | nil => simp at h; exact absurd (h.1.trans hc) hb
          | cons x l => simp at h; exact h3 l c r h.2 hc
        · rcases h4 with h | h | h
          · exact Or.inl h
          · right; left; simp [h]
          · right; right; rw [List.getLast?_cons]; simp [h]

/-- C57: reading standard input with `read` until nil gives all of it, in order: the pieces put together are the input.
Each piece is a line with its newline, except where a line is longer than 1023 bytes, which comes in pieces of 1023 bytes,
and at the end of an input that does not end with a newline. -/
theorem C57_lines (s : List (BitVec 8)) (hz : 0#8 ∉ s) (fuel : Nat) (hf : s.length < fuel) :
    (readAll fuel s).flatten = s ∧
    (∀ l ∈ readAll fuel s, l ≠ [] ∧ l.length ≤ 1023 ∧ ∀ a b r, l = a ++ b :: r → b = 0x0a#8 → r = []) ∧
    (∀ l ∈ (readAll fuel s).dropLast, l.length = 1023 ∨ l.getLast? = some 0x0a#8) := by
  induction fuel generalizing s with
  | zero => omega
  | succ f ih =>
    by_cases hs : s = []
    · subst hs; simp [readAll, lobbyRead]
    · obtain ⟨h1, h2, h3, h4, h5⟩ := fgets_spec 1023 s
      have hz1 : 0#8 ∉ (fgetsLoop 1023 s).1 := fun h => hz (by rw [← h1]; simp [h])
      have hz2 : 0#8 ∉ (fgetsLoop 1023 s).2 := fun h => hz (by rw [← h1]; simp [h])
      have h5 := h5 (by omega) hs
      have htw : (fgetsLoop 1023 s).1.takeWhile (· ≠ 0#8) = (fgetsLoop 1023 s).1 := by
        generalize (fgetsLoop 1023 s).1 = l at hz1
        induction l with
        | nil => rfl
        | cons b l ih =>
          rw [List.takeWhile_cons, if_pos]
          · rw [ih (fun hh => hz1 (by simp [hh]))]
          · simp; intro hb; exact hz1 (by simp [hb])
      have hlen : (fgetsLoop 1023 s).2.length < f := by
        have := congrArg List.length h1
        rw [List.length_append] at this
        have : (fgetsLoop 1023 s).1.length ≠ 0 := fun h => h5 (List.eq_nil_of_length_eq_zero h)
        omega
      obtain ⟨i1, i2, i3⟩ := ih (fgetsLoop 1023 s).2 hz2 hlen
      have heq : readAll (f+1) s = (fgetsLoop 1023 s).1 :: readAll f (fgetsLoop 1023 s).2 := by
        simp only [readAll, lobbyRead, if_neg hs, htw]
      rw [heq]
      refine ⟨by rw [List.flatten_cons, i1, h1], ?_, ?_⟩
      · intro l hl
        rcases List.mem_cons.1 hl with rfl | hl
        · exact ⟨h5, h2, h3⟩
        · exact i2 l hl
      · intro l hl
        by_cases hr : readAll f (fgetsLoop 1023 s).2 = []
        · rw [hr] at hl; simp at hl
        · rw [List.dropLast_cons_of_ne_nil hr] at hl
          rcases List.mem_cons.1 hl with rfl | hl
          · rcases h4 with h | h | h
            · exfalso
              rw [h] at hr
              cases f with
              | zero => exact hr rfl
              | succ f => exact hr (by simp [readAll, lobbyRead])
            · exact Or.inl h
            · exact Or.inr h
          · exact i3 l hl

/-- "ab\n", "\n", "c". -/
example : readAll 6 [0x61, 0x62, 0x0a, 0x0a, 0x63] = [[0x61, 0x62, 0x0a], [0x0a], [0x63]] ∧
    0#8 ∉ [0x61#8, 0x62, 0x0a, 0x0a, 0x63] := by decide

/-- C57 (refuted for a NUL in the input): the rest of its line is lost. -/
theorem C57_refuted_nul : readAll 9 [0x61, 0, 0x62, 0x0a, 0x63] = [[0x61], [0x63]] := by decide

/-- C57: for every environment of entries KEY=VALUE (the key without `=`), the table `Env` has, under every key, the value
of its last entry, and nothing else. -/
theorem C57_env (hash : List (BitVec 8) → Nat) (env : List (List (BitVec 8) × List (BitVec 8)))
    (hk : ∀ e ∈ env, 0x3d#8 ∉ e.1) :
    ∃ t, envTable hash KH.new (env.map fun e => e.1 ++ 0x3d#8 :: e.2) = some t ∧
      ∀ k, t.at hash k = some ((env.reverse.find? (fun e => e.1 = k)).map (·.2)) := by
  have split : ∀ (k v : List (BitVec 8)), 0x3d#8 ∉ k → splitEnv (k ++ 0x3d#8 :: v) = some (k, v) := by
    intro k v h
    induction k with
    | nil => simp [splitEnv]
    | cons b k ih =>
      have hb : b ≠ 0x3d#8 := fun e => h (by simp [e])
      simp [splitEnv, hb, ih (fun hh => h (by simp [hh]))]
  have go : ∀ (env : List (List (BitVec 8) × List (BitVec 8))) (t : KH (List (BitVec 8)) (List (BitVec 8))), WF hash t →
      (∀ e ∈ env, 0x3d#8 ∉ e.1) →
      ∃ t', envTable hash t (env.map fun e => e.1 ++ 0x3d#8 :: e.2) = some t' ∧ WF hash t' ∧
        ∀ k v, t'.Has k v ↔ (env.reverse.find? (fun e => e.1 = k)).map (·.2) = some v ∨
          (env.reverse.find? (fun e => e.1 = k) = none ∧ t.Has k v) := by
    intro env
    induction env with
    | nil => intro t w _; exact ⟨t, rfl, w, by simp⟩
    | cons e env ih =>
      intro t w he
      obtain ⟨t1, p1, w1, p2⟩ := w.put_spec e.1 e.2
      obtain ⟨t2, q1, w2, q2⟩ := ih t1 w1 (fun x hx => he x (by simp [hx]))
      refine ⟨t2, ?_, w2, ?_⟩
      · simp only [List.map_cons, envTable, split e.1 e.2 (he e (by simp)), Option.bind_eq_bind, Option.bind_some, p1, q1]
      · intro k v
        rw [q2, p2, List.reverse_cons, List.find?_append]
        cases hf : env.reverse.find? (fun e => e.1 = k) with
        | some x => simp
        | none =>
          by_cases hek : e.1 = k
          · subst hek; simp [eq_comm]
          · simp [hek, Ne.symm hek]
  obtain ⟨t, h1, w, h2⟩ := go env KH.new (WF.new hash) hk
  refine ⟨t, h1, ?_⟩
  intro k
  obtain ⟨o, ho, hov⟩ := w.at_spec k
  rw [ho]
  congr 1
  cases hx : (env.reverse.find? (fun e => e.1 = k)).map (·.2) with
  | some v => exact (hov v).2 ((h2 k v).2 (Or.inl hx))
  | none =>
    cases o with
    | none => rfl
    | some v =>
      rcases (h2 k v).1 ((hov v).1 rfl) with h | ⟨_, h⟩
      · rw [hx] at h; cases h
      · obtain ⟨i, h⟩ := h; simp [KH.new] at h

/-- PATH=/bin, A=, PATH=x: the last one wins. -/
example : ∀ e ∈ [([0x50#8, 0x41], [0x2f#8]), ([0x41], []), ([0x50, 0x41], [0x78])], 0x3d#8 ∉ e.1 := by decide

end Potion.Props
