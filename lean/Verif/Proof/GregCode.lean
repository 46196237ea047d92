import Verif.Proof.GregClass
namespace Potion.Greg

theorem double_ok (t : Nat) : ∀ (f n : Nat), 1 ≤ n → t ≤ n + (f - 1) → 1 ≤ f →
    ∃ r, double (fun n => decide (t ≤ n)) f n = some r ∧ t ≤ r ∧ n ≤ r := by
  intro f
  induction f with
  | zero => intro n _ _ h; omega
  | succ f ih =>
    intro n hn ht _
    rw [double]
    by_cases h : t ≤ n
    · exact ⟨n, by simp [h], h, by omega⟩
    · obtain ⟨r, h1, h2, h3⟩ := ih (2 * n) (by omega) (by omega) (by omega)
      exact ⟨r, by simp [h]; exact h1, h2, by omega⟩

/-- Buffers and positions are in order. -/
structure Inv (inp : List Byte) (g : G) : Prop where
  short : inp.length < YY_BUFFER_START_SIZE
  lim : (g.limit = 0 ∧ g.yypos = 0) ∨ (g.limit = inp.length ∧ inp.length ≤ g.yypos)
  buf : ∀ k, k < g.limit → inp[k]? = some (g.buf k)
  len : YY_BUFFER_START_SIZE ≤ g.buflen
  pos : g.pos ≤ g.limit
  b : g.b ≤ g.limit
  e : g.e ≤ g.limit
  text : 1 ≤ g.textlen
  thunks : 1 ≤ g.thunkslen
  acts : ∀ k, k < g.thunkpos → ∀ a nv b e, g.thunks k = .act a nv b e → b ≤ g.limit ∧ e ≤ g.limit

/-- Nothing is lost. -/
structure Ext (g g' : G) : Prop where
  limit : g.limit ≤ g'.limit
  thunkpos : g.thunkpos ≤ g'.thunkpos
  thunks : ∀ k, k < g.thunkpos → g'.thunks k = g.thunks k

theorem Ext.refl (g : G) : Ext g g := ⟨Nat.le_refl _, Nat.le_refl _, fun _ _ => rfl⟩
theorem Ext.trans {a b c : G} (h : Ext a b) (h' : Ext b c) : Ext a c :=
  ⟨Nat.le_trans h.limit h'.limit, Nat.le_trans h.thunkpos h'.thunkpos, fun k hk => by
    rw [h'.thunks k (Nat.lt_of_lt_of_le hk h.thunkpos), h.thunks k hk]⟩

def Marked (g : G) (m : Marks) : Prop := g.b = m.b ∧ g.e = m.e ∧ g.errs = m.errs

/-- The thunks that count. -/
def T (g : G) : List Thunk := (List.range g.thunkpos).map g.thunks

/-- Looking at the next byte. -/
theorem look_ok {inp g} (h : Inv inp g) : ∃ g', look inp g = some ((inp[g.pos]?).isSome, g') ∧ Inv inp g' ∧
    ((inp[g.pos]?).isSome → g.pos < g'.limit) ∧ g'.pos = g.pos ∧ g'.b = g.b ∧ g'.e = g.e ∧ g'.errs = g.errs ∧
    g'.thunks = g.thunks ∧ g'.thunkpos = g.thunkpos ∧ g.limit ≤ g'.limit := by
  have hsz : YY_BUFFER_START_SIZE = 16384 := rfl
  have hlen := h.len
  have hpos := h.pos
  have hshort := h.short
  rw [look]
  by_cases hp : g.pos ≥ g.limit
  · rw [if_pos hp, refill]
    obtain ⟨r, h1, h2, h3⟩ := double_ok (g.pos + 512) (g.pos + 512) g.buflen (by omega) (by omega) (by omega)
    rw [h1]
    dsimp only
    rcases h.lim with ⟨l1, l2⟩ | ⟨l1, l2⟩
    · have hp0 : g.pos = 0 := by omega
      by_cases hi : g.yypos < inp.length
      · rw [if_pos hi, if_pos (show g.yypos + (r - g.pos) > inp.length by omega), if_pos (show g.pos + (inp.length - g.yypos + 1) ≤ r by omega)]
        have hin : inp[g.pos]? = some inp[g.pos] := List.getElem?_eq_getElem (by omega)
        rw [hin]
        refine ⟨_, rfl, ⟨hshort, ?_, ?_, ?_, ?_, ?_, ?_, h.text, h.thunks, ?_⟩, ?_, rfl, rfl, rfl, rfl, rfl, rfl, ?_⟩
        · right; dsimp only; omega
        · intro k hk
          dsimp only at hk ⊢
          rw [if_pos (by omega)]
          have hkl : k < inp.length := by omega
          rw [List.getElem?_append_left (by omega)]
          rw [show g.yypos + (k - g.pos) = k by omega, List.getElem?_eq_getElem hkl]; rfl
        · exact Nat.le_trans hlen h3
        · dsimp only; omega
        · have := h.b; dsimp only; omega
        · have := h.e; dsimp only; omega
        · intro k hk a nv b e he
          have := h.acts k hk a nv b e he
          dsimp only; omega
        · intro _; dsimp only; omega
        · dsimp only; omega
      · rw [if_neg hi]
        have hin : inp[g.pos]? = none := List.getElem?_eq_none (by omega)
        rw [hin]
        refine ⟨_, rfl, ⟨hshort, h.lim, h.buf, ?_, h.pos, h.b, h.e, h.text, h.thunks, h.acts⟩, ?_, rfl, rfl, rfl, rfl, rfl, rfl, ?_⟩
        · exact Nat.le_trans hlen h3
        · simp
        · exact Nat.le_refl _
    · rw [if_neg (by omega)]
      have hin : inp[g.pos]? = none := List.getElem?_eq_none (by omega)
      rw [hin]
      refine ⟨_, rfl, ⟨hshort, h.lim, h.buf, ?_, h.pos, h.b, h.e, h.text, h.thunks, h.acts⟩, ?_, rfl, rfl, rfl, rfl, rfl, rfl, ?_⟩
      · exact Nat.le_trans hlen h3
      · simp
      · exact Nat.le_refl _
  · rw [if_neg hp]
    have hin := h.buf g.pos (by omega)
    exact ⟨g, by rw [hin]; rfl, h, fun _ => by omega, rfl, rfl, rfl, rfl, rfl, rfl, Nat.le_refl _⟩

theorem inv_pos {inp g p} (h : Inv inp g) (hp : p ≤ g.limit) : Inv inp { g with pos := p } :=
  ⟨h.short, h.lim, h.buf, h.len, hp, h.b, h.e, h.text, h.thunks, h.acts⟩

/-- What a test does: on success the position moves to `p`. -/
def Tested (inp : List Byte) (g : G) (r : Option (Bool × G)) (b : Bool) (p : Nat) : Prop :=
  ∃ g', r = some (b, g') ∧ Inv inp g' ∧ (b = true → g'.pos = p) ∧ g'.b = g.b ∧ g'.e = g.e ∧ g'.errs = g.errs ∧
    g'.thunks = g.thunks ∧ g'.thunkpos = g.thunkpos ∧ g.limit ≤ g'.limit

theorem dot_ok {inp g} (h : Inv inp g) : Tested inp g (matchDot inp g) (inp[g.pos]?).isSome (g.pos + 1) := by
  obtain ⟨g', h1, h2, h3, h4, h5⟩ := look_ok h
  rw [matchDot, h1]
  cases hb : (inp[g.pos]?).isSome
  · exact ⟨g', rfl, h2, by simp, h5⟩
  · exact ⟨_, rfl, inv_pos h2 (by have := h3 hb; omega), fun _ => by dsimp only; omega, h5⟩

theorem byte_at {inp g c} (h : Inv inp g) (hp : g.pos < g.limit) : g.buf g.pos = c ↔ inp[g.pos]? = some c := by
  rw [h.buf g.pos hp]; simp

theorem chr_ok {inp g} (c : Byte) (hc : c.toNat < 128) (h : Inv inp g) :
    Tested inp g (matchChar inp c g) (decide (inp[g.pos]? = some c)) (g.pos + 1) := by
  obtain ⟨g', h1, h2, h3, h4, h5⟩ := look_ok h
  rw [matchChar, h1]
  cases hb : (inp[g.pos]?).isSome
  · have hn : inp[g.pos]? = none := by simpa using hb
    rw [decide_eq_false (by rw [hn]; simp)]
    exact ⟨g', rfl, h2, by simp, h5⟩
  · have hlt := h3 hb
    have hbyte : g'.buf g'.pos = c ↔ inp[g.pos]? = some c := by rw [byte_at h2 (by omega), h4]
    have hint : ((g'.buf g'.pos).toNat : Int) = c.toInt ↔ g'.buf g'.pos = c := by
      rw [BitVec.toInt_eq_toNat_of_lt (by omega)]
      constructor
      · intro e; exact BitVec.eq_of_toNat_eq (by omega)
      · intro e; rw [e]
    by_cases hd : inp[g.pos]? = some c
    · rw [decide_eq_true hd]
      dsimp only
      rw [if_pos (hint.2 (hbyte.2 hd))]
      exact ⟨_, rfl, inv_pos h2 (by omega), fun _ => by dsimp only; omega, h5⟩
    · rw [decide_eq_false hd]
      dsimp only
      rw [if_neg (fun e => hd (hbyte.1 (hint.1 e)))]
      exact ⟨_, rfl, h2, by simp, h5⟩

theorem cls_ok {inp g t p} (hc : IsClass t p) (h : Inv inp g) (b : Bool) (hb : b = true ↔ ∃ c, inp[g.pos]? = some c ∧ p c) :
    Tested inp g (matchClass inp t g) b (g.pos + 1) := by
  obtain ⟨bits, k1, k2⟩ := class_ok hc
  obtain ⟨g', h1, h2, h3, h4, h5⟩ := look_ok h
  rw [matchClass, k1]
  dsimp only
  rw [h1]
  cases hs : (inp[g.pos]?).isSome
  · have hn : inp[g.pos]? = none := by simpa using hs
    have hbf : b = false := by
      cases b with
      | false => rfl
      | true => obtain ⟨c, e, _⟩ := hb.1 rfl; rw [hn] at e; simp at e
    rw [hbf]
    exact ⟨g', rfl, h2, by simp, h5⟩
  · have hlt := h3 hs
    have hbyte : inp[g.pos]? = some (g'.buf g'.pos) := by rw [← h4]; exact h2.buf g'.pos (by omega)
    dsimp only
    by_cases hd : p (g'.buf g'.pos)
    · rw [hb.2 ⟨_, hbyte, hd⟩, if_pos ((k2 _).2 hd)]
      exact ⟨_, rfl, inv_pos h2 (by omega), fun _ => by dsimp only; omega, h5⟩
    · have hbf : b = false := by
        cases b with
        | false => rfl
        | true => obtain ⟨c, e, e'⟩ := hb.1 rfl; rw [hbyte] at e; cases e; exact absurd e' hd
      rw [hbf, if_neg (fun e => hd ((k2 _).1 e))]
      exact ⟨_, rfl, h2, by simp, h5⟩

theorem str_ok {inp} (sav : Nat) : ∀ (s : List Byte) (g : G), Inv inp g → sav ≤ g.limit → 
    Tested inp g (matchString inp sav s g) (decide (s <+: inp.drop g.pos)) (g.pos + s.length) := by
  intro s
  induction s with
  | nil => intro g h _; exact ⟨g, by simp [matchString], h, fun _ => by simp, rfl, rfl, rfl, rfl, rfl, Nat.le_refl _⟩
  | cons c s ih =>
    intro g h hsav
    obtain ⟨g', h1, h2, h3, h4, h5⟩ := look_ok h
    rw [matchString, h1]
    cases hb : (inp[g.pos]?).isSome
    · have hn : inp[g.pos]? = none := by simpa using hb
      have hd : inp.drop g.pos = [] := List.drop_eq_nil_of_le (List.getElem?_eq_none_iff.1 hn)
      rw [decide_eq_false (by rw [hd]; simp)]
      exact ⟨g', rfl, h2, by simp, h5⟩
    · have hlt := h3 hb
      have hbyte : inp[g.pos]? = some (g'.buf g'.pos) := by rw [← h4]; exact h2.buf g'.pos (by omega)
      obtain ⟨hl, hbe⟩ := List.getElem?_eq_some_iff.1 hbyte
      have hd : inp.drop g.pos = g'.buf g'.pos :: inp.drop (g.pos + 1) := by
        rw [List.drop_eq_getElem_cons hl, hbe]
      dsimp only
      by_cases hc : g'.buf g'.pos = c
      · rw [if_neg (by simpa using hc)]
        obtain ⟨g'', i1, i2, i3, i4, i5, i6, i7, i8, i9⟩ := ih { g' with pos := g'.pos + 1 } (inv_pos h2 (by omega)) (by have := h5.2.2.2.2.2; exact Nat.le_trans hsav this)
        refine ⟨g'', ?_, i2, ?_, i4.trans h5.1, i5.trans h5.2.1, i6.trans h5.2.2.1, i7.trans h5.2.2.2.1, i8.trans h5.2.2.2.2.1, Nat.le_trans h5.2.2.2.2.2 i9⟩
        · rw [i1]; dsimp only; rw [h4, hd]; simp only [List.cons_prefix_cons, hc, true_and]
        · intro hh
          rw [hd] at hh; simp only [List.cons_prefix_cons] at hh
          have := i3 (by dsimp only; rw [h4]; simpa [hc] using hh)
          rw [this]; dsimp only; simp; omega
      · rw [if_pos (by simpa using hc), decide_eq_false (by rw [hd, List.cons_prefix_cons]; exact fun e => hc e.1.symm)]
        exact ⟨_, rfl, inv_pos h2 (Nat.le_trans hsav h5.2.2.2.2.2), by simp, h5⟩

theorem yyDo_ok {inp g} (t : Thunk) (h : Inv inp g) (ht : ∀ a nv b e, t = .act a nv b e → b ≤ g.limit ∧ e ≤ g.limit) : ∃ g', yyDo t g = some g' ∧ Inv inp g' ∧ g'.pos = g.pos ∧ g'.b = g.b ∧ g'.e = g.e ∧
    g'.errs = g.errs ∧ T g' = T g ++ [t] ∧ Ext g g' := by
  obtain ⟨r, h1, h2, h3⟩ := double_ok (g.thunkpos + 1) (g.thunkpos + 1) g.thunkslen h.thunks (by have := h.thunks; omega) (by omega)
  have h4 : yyDo t g = some { g with thunkslen := r, thunks := fun k => if k = g.thunkpos then t else g.thunks k, thunkpos := g.thunkpos + 1 } := by
    rw [yyDo, show (fun n => decide (g.thunkpos < n)) = (fun n => decide (g.thunkpos + 1 ≤ n)) from rfl, h1]; dsimp only; rw [if_pos (by omega)]
  refine ⟨_, h4, ⟨h.short, h.lim, h.buf, h.len, h.pos, h.b, h.e, h.text, by dsimp only; have := h.thunks; omega, ?_⟩,
    rfl, rfl, rfl, rfl, ?_, ⟨Nat.le_refl _, by dsimp only; omega, fun k hk => by dsimp only; rw [if_neg (by omega)]⟩⟩
  · intro k hk a nv b e he
    dsimp only at he
    split at he
    · exact ht _ _ _ _ he
    · exact h.acts k (by dsimp only at hk; omega) a nv b e he
  rw [T, T]
  dsimp only
  rw [List.range_succ, List.map_append]
  congr 1
  · apply List.map_congr_left
    intro k hk
    rw [if_neg (by have := List.mem_range.1 hk; omega)]
  · simp

theorem text_ok {inp g} (h : Inv inp g) : ∃ len, yyText g.buf g.buflen g.textlen g.b g.e = some (slice inp g.b g.e, len) ∧ 1 ≤ len := by
  have hsz : YY_BUFFER_START_SIZE = 16384 := rfl
  rw [yyText]
  by_cases hb : g.e ≤ g.b
  · rw [if_pos hb, if_pos (by have := h.text; omega)]
    exact ⟨_, by rw [slice, show g.e - g.b = 0 by omega]; simp, h.text⟩
  · rw [if_neg hb]
    obtain ⟨r, h1, h2, h3⟩ := double_ok (g.e - g.b + 1) (g.e - g.b + 1) g.textlen h.text (by have := h.text; omega) (by omega)
    have he := h.e
    have hl : g.limit ≤ inp.length := by rcases h.lim with h | h <;> omega
    have := h.short
    have := h.len
    rw [h1]
    dsimp only
    rw [if_pos ⟨by omega, h2⟩]
    refine ⟨r, ?_, by have := h.text; omega⟩
    congr 2
    rw [slice]
    apply List.ext_getElem?
    intro k
    by_cases hk : k < g.e - g.b
    · rw [List.getElem?_take, if_pos hk, List.getElem?_drop, List.getElem?_map, List.getElem?_range hk]
      exact (h.buf (g.b + k) (by omega)).symm
    · rw [List.getElem?_eq_none (by simp; omega), List.getElem?_eq_none (by simp; omega)]

theorem inv_text {inp g t len} (h : Inv inp g) (hl : 1 ≤ len) : Inv inp { g with text := t, textlen := len } :=
  ⟨h.short, h.lim, h.buf, h.len, h.pos, h.b, h.e, hl, h.thunks, h.acts⟩

end Potion.Greg
