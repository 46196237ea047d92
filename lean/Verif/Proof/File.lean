import Verif.Model.File
/-! Descriptors and files. -/
namespace Potion.File
open Potion

/-- Entry of the descriptor table. -/
def ent (l : List (Option Desc)) (n : Nat) : Option Desc := (l[n]?).join

theorem ent_setFd (l : List (Option Desc)) (n : Nat) (d : Option Desc) (m : Nat) :
    ent (setFd l n d) m = if m = n then d else ent l m := by
  induction n generalizing l m with
  | zero =>
    cases l with
    | nil => cases m <;> simp [setFd, ent]
    | cons x l => cases m <;> simp [setFd, ent]
  | succ n ih =>
    cases l with
    | nil =>
      cases m with
      | zero => simp [setFd, ent]
      | succ m => have := ih [] m; simp only [setFd, ent, List.getElem?_cons_succ] at this ⊢; rw [this]; simp
    | cons x l =>
      cases m with
      | zero => simp [setFd, ent]
      | succ m => have := ih l m; simp only [setFd, ent, List.getElem?_cons_succ] at this ⊢; rw [this]; simp

theorem ent_freeFd (l : List (Option Desc)) : ent l (freeFd l) = none := by
  induction l with
  | nil => simp [freeFd, ent]
  | cons x l ih => cases x <;> simp_all [freeFd, ent]

theorem desc_nat (os : OS) (n : Nat) : os.desc (n : Int) = ent os.fds n := by
  unfold OS.desc ent
  rw [if_neg (by omega)]; simp

theorem desc_nonneg (os : OS) {fd : Int} (h : 0 ≤ fd) : os.desc fd = ent os.fds fd.toNat := by
  unfold OS.desc ent
  rw [if_neg (by omega)]

theorem desc_neg (os : OS) {fd : Int} (h : fd < 0) : os.desc fd = none := by
  unfold OS.desc; rw [if_pos h]

theorem desc_some {os : OS} {fd : Int} {d : Desc} (h : os.desc fd = some d) : 0 ≤ fd := by
  by_cases hc : 0 ≤ fd
  · exact hc
  · rw [desc_neg os (by omega)] at h; cases h

/-- The open file of a File object. -/
def view (st : State) (i : Nat) : Option Desc := (st.objs[i]?).bind fun o => st.os.desc o.fd

/-- Open File objects have descriptors of their own. -/
structure Inv (st : State) : Prop where
  inj : ∀ (i j : Nat) (a b : Obj), st.objs[i]? = some a → st.objs[j]? = some b → 0 ≤ a.fd → a.fd = b.fd → i = j
  live : ∀ (i : Nat) (a : Obj), st.objs[i]? = some a → 0 ≤ a.fd → (st.os.desc a.fd).isSome

theorem desc_set (os : OS) (fs : Path → Option (List Byte)) {fd : Int} (h : 0 ≤ fd) (x : Option Desc) (e : Int) :
    OS.desc { fs := fs, fds := setFd os.fds fd.toNat x } e = if e = fd then x else os.desc e := by
  by_cases he : e < 0
  · rw [desc_neg _ he, desc_neg _ he, if_neg (by omega)]
  · rw [desc_nonneg _ (by omega), desc_nonneg _ (by omega), ent_setFd]
    by_cases hh : e = fd
    · subst hh; simp
    · rw [if_neg hh, if_neg (by omega)]

/-- Changing the entry of object `i` to another description changes only the view of `i`. -/
theorem upd_spec {st : State} (inv : Inv st) {i : Nat} {o : Obj} (ho : st.objs[i]? = some o) {d : Desc}
    (hd : st.os.desc o.fd = some d) (fs : Path → Option (List Byte)) (d' : Desc) :
    let st' : State := { st with os := { fs := fs, fds := setFd st.os.fds o.fd.toNat (some d') } }
    Inv st' ∧ ∀ j, view st' j = if j = i then some d' else view st j := by
  have h0 := desc_some hd
  refine ⟨⟨inv.inj, ?_⟩, ?_⟩
  · intro j a ha hfd
    show (OS.desc _ a.fd).isSome
    rw [desc_set st.os fs h0]
    split
    · rfl
    · exact inv.live j a ha hfd
  · intro j
    show ((st.objs[j]?).bind fun o => OS.desc _ o.fd) = _
    unfold view
    cases hj : st.objs[j]? with
    | none =>
      rw [if_neg]
      · rfl
      · rintro rfl; rw [ho] at hj; cases hj
    | some a =>
      simp only [Option.bind_some]
      rw [desc_set st.os fs h0]
      by_cases hji : j = i
      · subst hji; rw [ho] at hj; cases hj; simp
      · rw [if_neg hji]
        by_cases hf : a.fd = o.fd
        · exact absurd (inv.inj j i a o hj ho (by omega) hf) hji
        · rw [if_neg hf]

theorem osRead_spec {os : OS} {fd : Int} {n : Nat} {k : Option Nat} {os' : OS} {r : List Byte}
    (h : osRead os fd n k = some (os', r)) :
    ∃ d k', os.desc fd = some d ∧ k = some k' ∧ d.fl.rd = true ∧
      r = ((os.fs d.path).getD [] |>.drop d.off).take (min n (k' + 1)) ∧
      os' = { fs := os.fs, fds := setFd os.fds fd.toNat (some { d with off := d.off + r.length }) } := by
  unfold osRead at h
  cases hd : os.desc fd with
  | none => rw [hd] at h; cases h
  | some d =>
    rw [hd] at h
    cases k with
    | none => cases h
    | some k =>
      simp only [Option.bind_eq_bind, Option.bind_some] at h
      split at h
      · rename_i hrd
        have := Option.some.inj h
        rw [Prod.mk.injEq] at this
        obtain ⟨h1, h2⟩ := this
        refine ⟨d, k, rfl, rfl, hrd, h2.symm, ?_⟩
        rw [← h1, ← h2]
      · cases h

theorem osWrite_spec {os : OS} {fd : Int} {s : List Byte} {k : Option Nat} {os' : OS} {n : Nat}
    (h : osWrite os fd s k = some (os', n)) :
    ∃ d k', os.desc fd = some d ∧ k = some k' ∧ d.fl.wr = true ∧ n = (s.take (k' + 1)).length ∧
      ∃ pos, pos = (if d.fl.app then ((os.fs d.path).getD []).length else d.off) ∧
      os' = { fs := fun q => if q = d.path then some (overwrite ((os.fs d.path).getD []) pos (s.take (k' + 1))) else os.fs q,
              fds := setFd os.fds fd.toNat (some { d with off := pos + (s.take (k' + 1)).length }) } := by
  unfold osWrite at h
  cases hd : os.desc fd with
  | none => rw [hd] at h; cases h
  | some d =>
    rw [hd] at h
    cases k with
    | none => cases h
    | some k =>
      simp only [Option.bind_eq_bind, Option.bind_some] at h
      split at h
      · rename_i hwr
        have := Option.some.inj h
        rw [Prod.mk.injEq] at this
        obtain ⟨h1, h2⟩ := this
        exact ⟨d, k, rfl, rfl, hwr, h2.symm, _, rfl, h1.symm⟩
      · cases h

theorem osOpen_spec {os : OS} {p : Path} {fl : Flags} {os' : OS} {fd : Nat} (h : osOpen os p fl = some (os', fd)) :
    ent os.fds fd = none ∧ os'.fds = setFd os.fds fd (some ⟨p, 0, fl⟩) ∧
      (∀ q, q ≠ p → os'.fs q = os.fs q) ∧
      (os'.fs p = some (if fl.trunc then [] else (os.fs p).getD [])) ∧ ((os.fs p).isSome ∨ fl.creat = true) := by
  unfold osOpen at h
  cases hp : os.fs p with
  | none =>
    rw [hp] at h
    simp only at h
    split at h
    · rename_i hc
      have := Option.some.inj h
      rw [Prod.mk.injEq] at this
      obtain ⟨h1, h2⟩ := this
      subst h1; subst h2
      refine ⟨ent_freeFd _, rfl, fun q hq => by simp [hq], by simp, Or.inr hc⟩
    · cases h
  | some c =>
    rw [hp] at h
    simp only at h
    have := Option.some.inj h
    rw [Prod.mk.injEq] at this
    obtain ⟨h1, h2⟩ := this
    subst h1; subst h2
    refine ⟨ent_freeFd _, rfl, fun q hq => by simp [hq], by simp, Or.inl rfl⟩

/-- `File(path, mode)`. -/
theorem new_spec {st : State} (inv : Inv st) (p m : List Byte) :
    Inv (fileNew st p m).1 ∧ (∀ j, j < st.objs.length → view (fileNew st p m).1 j = view st j) ∧
    ((fileNew st p m = (st, .nil) ∧ modeFlags m = none) ∨
      ∃ fl, modeFlags m = some fl ∧
        ((fileNew st p m = (st, .err) ∧ st.os.fs (p.takeWhile (· ≠ 0#8)) = none ∧ fl.creat = false) ∨
         ((fileNew st p m).2 = .file st.objs.length ∧ (fileNew st p m).1.objs.length = st.objs.length + 1 ∧
          view (fileNew st p m).1 st.objs.length = some ⟨p.takeWhile (· ≠ 0#8), 0, fl⟩ ∧
          (∀ q, q ≠ p.takeWhile (· ≠ 0#8) → (fileNew st p m).1.os.fs q = st.os.fs q) ∧
          (fileNew st p m).1.os.fs (p.takeWhile (· ≠ 0#8)) =
            some (if fl.trunc then [] else (st.os.fs (p.takeWhile (· ≠ 0#8))).getD []) ∧
          ((st.os.fs (p.takeWhile (· ≠ 0#8))).isSome ∨ fl.creat = true)))) := by
  unfold fileNew
  cases hm : modeFlags m with
  | none => exact ⟨inv, fun _ _ => rfl, Or.inl ⟨rfl, rfl⟩⟩
  | some fl =>
    simp only
    cases ho : osOpen st.os (p.takeWhile (· ≠ 0#8)) fl with
    | none =>
      refine ⟨inv, fun _ _ => rfl, Or.inr ⟨fl, rfl, Or.inl ⟨rfl, ?_⟩⟩⟩
      unfold osOpen at ho
      cases hp : st.os.fs (p.takeWhile (· ≠ 0#8)) with
      | none =>
        rw [hp] at ho
        simp only at ho
        split at ho
        · cases ho
        · rename_i hc; exact ⟨rfl, by simpa using hc⟩
      | some c => rw [hp] at ho; cases ho
    | some r =>
      obtain ⟨os, fd⟩ := r
      obtain ⟨h1, h2, h3, h4, h5⟩ := osOpen_spec ho
      have hdesc : ∀ e : Int, os.desc e = if e = (fd : Int) then some ⟨p.takeWhile (· ≠ 0#8), 0, fl⟩ else st.os.desc e := by
        intro e
        have := desc_set st.os os.fs (fd := (fd : Int)) (by omega) (some ⟨p.takeWhile (· ≠ 0#8), 0, fl⟩) e
        rw [Int.toNat_natCast, ← h2] at this
        exact this
      have hfresh : ∀ (i : Nat) (a : Obj), st.objs[i]? = some a → a.fd ≠ (fd : Int) := by
        intro i a ha hf
        have := inv.live i a ha (by omega)
        rw [hf, desc_nat, h1] at this
        cases this
      have hidx : ∀ (i : Nat) (a : Obj), (st.objs ++ [⟨(fd : Int)⟩])[i]? = some a →
          (st.objs[i]? = some a) ∨ (i = st.objs.length ∧ a = ⟨(fd : Int)⟩) := by
        intro i a ha
        rcases Nat.lt_trichotomy i st.objs.length with h | h | h
        · rw [List.getElem?_append_left h] at ha; exact Or.inl ha
        · subst h; simp at ha; exact Or.inr ⟨rfl, ha.symm⟩
        · rw [List.getElem?_eq_none (by simp; omega)] at ha; cases ha
      refine ⟨⟨?_, ?_⟩, ?_, Or.inr ⟨fl, rfl, Or.inr ⟨rfl, by simp, ?_, h3, h4, h5⟩⟩⟩
      · intro i j a b ha hb h0 hab
        rcases hidx i a ha with ha | ⟨ha, ha'⟩ <;> rcases hidx j b hb with hb | ⟨hb, hb'⟩
        · exact inv.inj i j a b ha hb h0 hab
        · subst hb'; exact absurd hab (hfresh i a ha)
        · subst ha'; exact absurd hab.symm (hfresh j b hb)
        · omega
      · intro i a ha h0
        show (os.desc a.fd).isSome
        rw [hdesc]
        split
        · rfl
        · rename_i hne
          rcases hidx i a ha with ha | ⟨_, ha'⟩
          · exact inv.live i a ha h0
          · subst ha'; exact absurd rfl hne
      · intro j hj
        show ((st.objs ++ [⟨(fd : Int)⟩])[j]?.bind fun o => os.desc o.fd) = view st j
        rw [List.getElem?_append_left hj]
        unfold view
        cases hjj : st.objs[j]? with
        | none => rfl
        | some a =>
          simp only [Option.bind_some]
          rw [hdesc, if_neg (hfresh j a hjj)]
      · show ((st.objs ++ [⟨(fd : Int)⟩])[st.objs.length]?.bind fun o => os.desc o.fd) = _
        simp [hdesc]

/-- `close`. -/
theorem close_spec {st : State} (inv : Inv st) (i : Nat) :
    Inv (fileClose st i).1 ∧ (fileClose st i).1.objs.length = st.objs.length ∧ (fileClose st i).1.os.fs = st.os.fs ∧
      ∀ j, view (fileClose st i).1 j = if j = i then none else view st j := by
  unfold fileClose
  cases ho : st.objs[i]? with
  | none =>
    refine ⟨inv, rfl, rfl, ?_⟩
    intro j
    show view st j = _
    by_cases h : j = i
    · subst h; rw [if_pos rfl]; unfold view; rw [ho]; rfl
    · rw [if_neg h]
  | some o =>
    simp only
    have hget : ∀ j, (st.objs.set i ⟨-1⟩)[j]? = if j = i then some ⟨-1⟩ else st.objs[j]? := by
      intro j
      rw [List.getElem?_set]
      have hi : i < st.objs.length := (List.getElem?_eq_some_iff.1 ho).1
      by_cases hji : j = i
      · subst hji; simp [hi]
      · rw [if_neg (Ne.symm hji), if_neg hji]
    have hdesc : ∀ e : Int, e ≠ o.fd →
        (if o.fd < 0 then st.os else { st.os with fds := setFd st.os.fds o.fd.toNat none }).desc e = st.os.desc e := by
      intro e he
      split
      · rfl
      · rename_i hneg
        exact (by rw [desc_set st.os st.os.fs (by omega), if_neg he] :
          OS.desc { fs := st.os.fs, fds := setFd st.os.fds o.fd.toNat none } e = st.os.desc e)
    have hold : ∀ (j : Nat) (a : Obj), (st.objs.set i ⟨-1⟩)[j]? = some a → 0 ≤ a.fd → j ≠ i ∧ st.objs[j]? = some a := by
      intro j a ha h0
      rw [hget] at ha
      split at ha
      · cases ha; simp at h0
      · rename_i hne; exact ⟨hne, ha⟩
    refine ⟨⟨?_, ?_⟩, by simp, by split <;> rfl, ?_⟩
    · intro a b x y ha hb h0 hxy
      obtain ⟨_, ha⟩ := hold a x ha h0
      obtain ⟨_, hb⟩ := hold b y hb (by omega)
      exact inv.inj a b x y ha hb h0 hxy
    · intro j a ha h0
      obtain ⟨hne, ha⟩ := hold j a ha h0
      have : a.fd ≠ o.fd := fun h => hne (inv.inj j i a o ha ho h0 h)
      exact (by rw [hdesc a.fd this]; exact inv.live j a ha h0)
    · intro j
      show ((st.objs.set i ⟨-1⟩)[j]?.bind fun o' => OS.desc _ o'.fd) = _
      rw [hget]
      split
      · simp [desc_neg]
      · rename_i hne
        unfold view
        cases hj : st.objs[j]? with
        | none => rfl
        | some a =>
          simp only [Option.bind_some]
          by_cases h0 : 0 ≤ a.fd
          · have : a.fd ≠ o.fd := fun h => hne (inv.inj j i a o hj ho h0 h)
            exact hdesc a.fd this
          · rw [desc_neg _ (by omega), desc_neg _ (by omega)]

/-- `read`. -/
theorem read_spec {st : State} (inv : Inv st) (i n : Nat) (k : Option Nat) :
    Inv (fileRead st i n k).1 ∧ (fileRead st i n k).1.objs.length = st.objs.length ∧
    (fileRead st i n k).1.os.fs = st.os.fs ∧ (∀ j, j ≠ i → view (fileRead st i n k).1 j = view st j) ∧
    (fileRead st i n k = (st, .err) ∨
      ∃ d k', view st i = some d ∧ d.fl.rd = true ∧ k = some k' ∧
        ∃ r, r = (((st.os.fs d.path).getD []).drop d.off).take (min n (k' + 1)) ∧
        (fileRead st i n k).2 = (if r.length = 0 then .nil else .bytes r) ∧
        view (fileRead st i n k).1 i = some { d with off := d.off + r.length }) := by
  unfold fileRead
  cases ho : st.objs[i]? with
  | none => exact ⟨inv, rfl, rfl, fun _ _ => rfl, Or.inl rfl⟩
  | some o =>
    simp only
    cases hr : osRead st.os o.fd n k with
    | none => exact ⟨inv, rfl, rfl, fun _ _ => rfl, Or.inl rfl⟩
    | some x =>
      obtain ⟨os, r⟩ := x
      obtain ⟨d, k', h1, h2, h3, h4, h5⟩ := osRead_spec hr
      subst h5
      obtain ⟨hinv, hv⟩ := upd_spec inv ho h1 st.os.fs { d with off := d.off + r.length }
      refine ⟨hinv, rfl, rfl, fun j hj => by rw [hv, if_neg hj], Or.inr ⟨d, k', ?_, h3, h2, r, h4, rfl, ?_⟩⟩
      · unfold view; rw [ho]; exact h1
      · rw [hv, if_pos rfl]

/-- `write`. -/
theorem write_spec {st : State} (inv : Inv st) (i : Nat) (v : Val) (k : Option Nat) :
    Inv (fileWrite st i v k).1 ∧ (fileWrite st i v k).1.objs.length = st.objs.length ∧
    (∀ j, j ≠ i → view (fileWrite st i v k).1 j = view st j) ∧
    ((fileWrite st i v k).1 = st ∧ ((fileWrite st i v k).2 = .err ∨ (fileWrite st i v k).2 = .nil) ∨
      ∃ s d k', payload v = .inl s ∧ view st i = some d ∧ d.fl.wr = true ∧ k = some k' ∧
        (fileWrite st i v k).2 = .num (s.take (k' + 1)).length ∧
        ∃ pos, pos = (if d.fl.app then ((st.os.fs d.path).getD []).length else d.off) ∧
        view (fileWrite st i v k).1 i = some { d with off := pos + (s.take (k' + 1)).length } ∧
        (fileWrite st i v k).1.os.fs d.path = some (overwrite ((st.os.fs d.path).getD []) pos (s.take (k' + 1))) ∧
        ∀ q, q ≠ d.path → (fileWrite st i v k).1.os.fs q = st.os.fs q) := by
  unfold fileWrite
  cases hp : payload v with
  | inr r =>
    refine ⟨inv, rfl, fun _ _ => rfl, Or.inl ⟨rfl, ?_⟩⟩
    cases v <;> simp only [payload, Sum.inr.injEq, reduceCtorEq] at hp <;> simp [← hp]
  | inl s =>
    simp only
    cases ho : st.objs[i]? with
    | none => exact ⟨inv, rfl, fun _ _ => rfl, Or.inl ⟨rfl, Or.inl rfl⟩⟩
    | some o =>
      simp only
      cases hr : osWrite st.os o.fd s k with
      | none => exact ⟨inv, rfl, fun _ _ => rfl, Or.inl ⟨rfl, Or.inl rfl⟩⟩
      | some x =>
        obtain ⟨os, n⟩ := x
        obtain ⟨d, k', h1, h2, h3, h4, pos, h5, h6⟩ := osWrite_spec hr
        subst h6
        obtain ⟨hinv, hv⟩ := upd_spec inv ho h1
          (fun q => if q = d.path then some (overwrite ((st.os.fs d.path).getD []) pos (s.take (k' + 1))) else st.os.fs q)
          { d with off := pos + (s.take (k' + 1)).length }
        refine ⟨hinv, rfl, fun j hj => by rw [hv, if_neg hj],
          Or.inr ⟨s, d, k', rfl, ?_, h3, h2, by rw [h4], pos, h5, ?_, ?_, ?_⟩⟩
        · unfold view; rw [ho]; exact h1
        · rw [hv, if_pos rfl]
        · simp
        · intro q hq; simp [hq]

theorem print_eq (st : State) (i : Nat) (s : List Byte) (k : Option Nat) :
    (filePrint st i s k).1 = (fileWrite st i (.str s) k).1 ∧
    ((∃ n, (fileWrite st i (.str s) k).2 = .num n ∧ (filePrint st i s k).2 = .str []) ∨
     ((∀ n, (fileWrite st i (.str s) k).2 ≠ .num n) ∧ (filePrint st i s k).2 = (fileWrite st i (.str s) k).2)) := by
  unfold filePrint
  generalize hx : fileWrite st i (.str s) k = x
  obtain ⟨a, b⟩ := x
  cases b <;> simp

theorem step_inv {st : State} (inv : Inv st) (o : Op) : Inv (step st o).1 := by
  cases o with
  | new p m => exact (new_spec inv p m).1
  | close i => exact (close_spec inv i).1
  | read i n k => exact (read_spec inv i n k).1
  | write i v k => exact (write_spec inv i v k).1
  | print i s k => show Inv (filePrint st i s k).1; rw [(print_eq st i s k).1]; exact (write_spec inv i _ k).1

theorem run_inv (os : List Op) : ∀ {st : State}, Inv st → Inv (run st os).1 := by
  induction os with
  | nil => intro st h; exact h
  | cons o os ih => intro st h; exact ih (step_inv h o)

theorem overwrite_end (c s : List Byte) : overwrite c c.length s = c ++ s := by
  simp [overwrite]

end Potion.File
