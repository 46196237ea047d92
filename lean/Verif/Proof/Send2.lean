import Verif.Proof.Send1
/-! Proof of C77: growth of the code, instruction lemmas. -/
namespace Potion.Send
open Potion Potion.Peg Potion.CompileAll Potion.Vm

variable {V S E : Type} {W : World V S E} {me : V} {f : Fn}

structure Grow (st st' : CSt) : Prop where
  len : st.len ≤ st'.len
  code : ∀ k < st.len, st'.code k = st.code k
  vals : st.values <+: st'.values
  locs : st.locals <+: st'.locals
  over : st.over = true → st'.over = true
  ups : st'.upvals = st.upvals
  out : st'.outer = st.outer
  loop : st'.loop = st.loop

theorem Grow.refl (st : CSt) : Grow st st := ⟨Nat.le_refl _, fun _ _ => rfl, List.prefix_refl _, List.prefix_refl _, id, rfl, rfl, rfl⟩
theorem Grow.trans {a b c : CSt} (h : Grow a b) (h' : Grow b c) : Grow a c :=
  ⟨Nat.le_trans h.len h'.len, fun k hk => by rw [h'.code k (by have := h.len; omega), h.code k hk], h.vals.trans h'.vals, h.locs.trans h'.locs,
    fun x => h'.over (h.over x), by rw [h'.ups, h.ups], by rw [h'.out, h.out], by rw [h'.loop, h.loop]⟩

/-- `f` contains the code between `st` and `st'`. -/
structure Holds (f : Fn) (st st' : CSt) : Prop where
  len : st'.len ≤ f.len
  code : ∀ k, st.len ≤ k → k < st'.len → f.code k = st'.code k
  vals : st'.values <+: f.values
  locs : st'.locals <+: f.locals
  over : st'.over = true → f.over = true

theorem Holds.left {a b c : CSt} (h : Holds f a c) (h' : Grow b c) : Holds f a b :=
  ⟨Nat.le_trans h'.len h.len, fun k h1 h2 => by rw [h.code k h1 (by have := h'.len; omega), h'.code k h2], h'.vals.trans h.vals, h'.locs.trans h.locs,
    fun x => h.over (h'.over x)⟩
theorem Holds.right {a b c : CSt} (h : Holds f a c) (h' : a.len ≤ b.len) : Holds f b c :=
  ⟨h.len, fun k h1 h2 => h.code k (by omega) h2, h.vals, h.locs, h.over⟩

theorem Holds.room {a c : CSt} (h : Holds f a c) (hf : f.fits) : c.over = false := by
  cases hc : c.over with
  | false => rfl
  | true => exact absurd (h.over hc) (by rw [hf.1]; simp)

theorem grow_asm (st : CSt) (op a b) : Grow st (st.asm op a b) :=
  ⟨Nat.le_succ _, fun k hk => by simp only [CSt.asm]; rw [if_neg (by omega)], List.prefix_refl _, List.prefix_refl _, id, rfl, rfl, rfl⟩
theorem grow_wide (st : CSt) (n) : Grow st (st.wide n) :=
  ⟨Nat.le_refl _, fun _ _ => rfl, List.prefix_refl _, List.prefix_refl _, fun h => by simp [CSt.wide, h], rfl, rfl, rfl⟩
theorem grow_regs (st : CSt) (n) : Grow st (st.regs n) := by
  unfold CSt.regs; split
  · exact ⟨Nat.le_refl _, fun _ _ => rfl, List.prefix_refl _, List.prefix_refl _, id, rfl, rfl, rfl⟩
  · exact .refl _
theorem grow_const (st : CSt) (v) : Grow st (st.const v).1 :=
  ⟨Nat.le_refl _, fun _ _ => rfl, put_prefix .., List.prefix_refl _, id, rfl, rfl, rfl⟩
theorem grow_path (st : CSt) (n) : Grow st (st.path n) :=
  ⟨Nat.le_refl _, fun _ _ => rfl, List.prefix_refl _, List.prefix_refl _, id, rfl, rfl, rfl⟩
theorem grow_locl (st : CSt) (v) : Grow st (st.locl v).1 :=
  ⟨Nat.le_refl _, fun _ _ => rfl, List.prefix_refl _, put_prefix .., id, rfl, rfl, rfl⟩

/-- The names of the variables so far; the main program has no upvalues. -/
def Good (st : CSt) (K : List Ident) : Prop := st.locals = K.map .str ∧ st.upvals = [] ∧ st.outer = []

theorem good_of {st st' : CSt} {K} (h : Good st K) (h' : st'.locals = st.locals) (g : Grow st st') : Good st' K :=
  ⟨by rw [h', h.1], by rw [g.ups, h.2.1], by rw [g.out, h.2.2]⟩
theorem good_asm {st : CSt} {K} (h : Good st K) (op a b) : Good (st.asm op a b) K := good_of h rfl (grow_asm ..)
theorem good_wide {st : CSt} {K} (h : Good st K) (n) : Good (st.wide n) K := good_of h rfl (grow_wide ..)
theorem good_regs {st : CSt} {K} (h : Good st K) (n) : Good (st.regs n) K := good_of h (by unfold CSt.regs; split <;> rfl) (grow_regs ..)
theorem good_const {st : CSt} {K} (h : Good st K) (n) : Good (st.const n).1 K := good_of h rfl (grow_const ..)
theorem good_path {st : CSt} {K} (h : Good st K) (n) : Good (st.path n) K := good_of h rfl (grow_path ..)

@[simp] theorem len_wide (st : CSt) (n) : (st.wide n).len = st.len := rfl
@[simp] theorem len_asm (st : CSt) (op a b) : (st.asm op a b).len = st.len + 1 := rfl
@[simp] theorem len_const (st : CSt) (v) : (st.const v).1.len = st.len := rfl
@[simp] theorem len_path (st : CSt) (v) : (st.path v).len = st.len := rfl
@[simp] theorem len_locl (st : CSt) (v) : (st.locl v).1.len = st.len := rfl
@[simp] theorem len_regs (st : CSt) (n) : (st.regs n).len = st.len := by unfold CSt.regs; split <;> rfl

theorem put_get (l : List Tree) (v : Tree) : (put l v).1[(put l v).2]? = some v := by
  unfold put
  cases h : find l v with
  | none => simp
  | some i =>
    dsimp only
    induction l generalizing i with
    | nil => simp [find] at h
    | cons x l ih =>
      simp only [find] at h
      split at h
      · rename_i hs; injection h with h; subst h; simp [same_eq hs]
      · obtain ⟨j, hj, rfl⟩ := Option.map_eq_some_iff.1 h
        simpa using ih _ hj
theorem prefix_get {l m : List Tree} {i : Nat} {v : Tree} (h : l <+: m) (hi : l[i]? = some v) : m[i]? = some v := by
  obtain ⟨r, rfl⟩ := h
  rw [List.getElem?_append_left (List.getElem?_eq_some_iff.1 hi).1]; exact hi
theorem find_prefix {l m : List Tree} {v i} (h : l <+: m) (hi : find l v = some i) : find m v = some i := by
  obtain ⟨r, rfl⟩ := h
  induction l generalizing i with
  | nil => simp [find] at hi
  | cons x l ih =>
    simp only [find, List.cons_append] at hi ⊢
    split at hi
    · rename_i hs; rw [if_pos hs]; exact hi
    · rename_i hs
      obtain ⟨j, hj, rfl⟩ := Option.map_eq_some_iff.1 hi
      rw [if_neg hs, ih hj]; rfl
theorem find_get {l : List Tree} {v i} (h : find l v = some i) : l[i]? = some v := by
  have := put_get l v
  unfold put at this; rw [h] at this; exact this
theorem find_names {K : List Ident} {x : Ident} : (find (K.map .str) (.str x)).isSome ↔ x ∈ K := by
  induction K with
  | nil => simp [find]
  | cons y K ih =>
    simp only [List.map_cons, find, same, beq_iff_eq, List.mem_cons]
    by_cases h : y = x
    · simp [h]
    · rw [if_neg h, Option.isSome_map, ih]
      constructor
      · exact .inr
      · rintro (rfl | h')
        · exact absurd rfl h
        · exact h'

/-- The instruction just emitted. -/
theorem at_asm {a c st : CSt} {op : Op} {x y : Nat} (h : Holds f a c) (ha : a.len ≤ st.len) (hg : Grow (st.asm op x y) c) (hx : x < 2048) (hy : y < 2048) :
    At f st.len op x y := by
  have hl := hg.len
  have hm : (st.asm op x y).len = st.len + 1 := rfl
  refine ⟨by have := h.len; omega, ?_⟩
  rw [h.code st.len ha (by omega), hg.code st.len (by omega)]
  simp only [CSt.asm, if_pos]
  rw [trunc_id (by omega) (by omega), trunc_id (by omega) (by omega)]

theorem const_small {a c st : CSt} {v : Tree} (h : Holds f a c) (hf : f.fits) (hg : Grow (st.const v).1 c) :
    (st.const v).2 < 2048 ∧ f.values[(st.const v).2]? = some v := by
  have h1 : (st.const v).1.values[(st.const v).2]? = some v := put_get ..
  have h2 := prefix_get (hg.vals.trans h.vals) h1
  exact ⟨by have := (List.getElem?_eq_some_iff.1 h2).1; have := hf.2.2.2.2.1; omega, h2⟩

theorem wide_small {a c st : CSt} {n : Nat} (h : Holds f a c) (hf : f.fits) (hg : Grow (st.wide n) c) : n < 256 := by
  have h1 := h.room hf
  rcases Nat.lt_or_ge n 256 with h2 | h2
  · exact h2
  · rw [hg.over (by simp [CSt.wide, h2])] at h1; contradiction

/-! ### Steps -/

section
variable {n a b : Nat} {reg loc : Nat → V} {m : S}
theorem step_move (h : At f n .move a b) : step W me f ⟨n, reg, loc, m⟩ = St.res ⟨n, reg, loc, m⟩ a (.ok (reg b, m)) := by
  unfold step; rw [if_pos h.1, h.2]; simp
theorem step_self (h : At f n .self a b) : step W me f ⟨n, reg, loc, m⟩ = St.res ⟨n, reg, loc, m⟩ a (.ok (me, m)) := by
  unfold step; rw [if_pos h.1, h.2]; simp
theorem step_loadk {v} (h : At f n .loadk a b) (hv : f.values[b]? = some v) : step W me f ⟨n, reg, loc, m⟩ = St.res ⟨n, reg, loc, m⟩ a (.ok (W.const v, m)) := by
  unfold step; rw [if_pos h.1, h.2]; simp [hv]
theorem step_getlocal (h : At f n .getlocal a b) : step W me f ⟨n, reg, loc, m⟩ = St.res ⟨n, reg, loc, m⟩ a (.ok (loc b, m)) := by
  unfold step; rw [if_pos h.1, h.2]; simp
theorem step_setlocal (h : At f n .setlocal a b) : step W me f ⟨n, reg, loc, m⟩ = .go ⟨n + 1, reg, upd loc b (reg a), m⟩ := by
  unfold step; rw [if_pos h.1, h.2]; simp
theorem step_newtuple (h : At f n .newtuple a b) : step W me f ⟨n, reg, loc, m⟩ = St.res ⟨n, reg, loc, m⟩ a (W.tuple m) := by
  unfold step; rw [if_pos h.1, h.2]; simp
theorem step_settuple (h : At f n .settuple a b) : step W me f ⟨n, reg, loc, m⟩ = St.res ⟨n, reg, loc, m⟩ a (W.push (reg a) (reg b) m) := by
  unfold step; rw [if_pos h.1, h.2]; simp
theorem step_getpath (h : At f n .getpath a b) : step W me f ⟨n, reg, loc, m⟩ = St.res ⟨n, reg, loc, m⟩ a (W.get (reg a) (reg b) m) := by
  unfold step; rw [if_pos h.1, h.2]; simp
theorem step_def (h : At f n .def a b) : step W me f ⟨n, reg, loc, m⟩ = St.res ⟨n, reg, loc, m⟩ a (W.defMethod (reg a) (reg (a + 1)) (reg b) m) := by
  unfold step; rw [if_pos h.1, h.2]; simp
theorem step_not (h : At f n .not a b) : step W me f ⟨n, reg, loc, m⟩ = St.res ⟨n, reg, loc, m⟩ a (.ok (W.bool (!W.truth (reg a)), m)) := by
  unfold step; rw [if_pos h.1, h.2]; simp
theorem step_bitn (h : At f n .bitn a b) : step W me f ⟨n, reg, loc, m⟩ = St.res ⟨n, reg, loc, m⟩ a (W.bitn (reg b) m) := by
  unfold step; rw [if_pos h.1, h.2]; simp
theorem step_bind (h : At f n .bind a b) : step W me f ⟨n, reg, loc, m⟩ = St.res ⟨n, reg, loc, m⟩ a (W.bind (reg b) (reg a) m) := by
  unfold step; rw [if_pos h.1, h.2]; simp
theorem step_msg (h : At f n .msg a b) : step W me f ⟨n, reg, loc, m⟩ = St.res ⟨n, reg, loc, m⟩ a (W.message (reg b) (reg a) m) := by
  unfold step; rw [if_pos h.1, h.2]; simp
theorem step_test (h : At f n .test a b) : step W me f ⟨n, reg, loc, m⟩ = St.res ⟨n, reg, loc, m⟩ a (.ok (W.bool (W.truth (reg a)), m)) := by
  unfold step; rw [if_pos h.1, h.2]; simp
theorem step_notjmp (h : At f n .notjmp a b) :
    step W me f ⟨n, reg, loc, m⟩ = .go ⟨if W.truth (reg a) then n + 1 else n + 1 + b, reg, loc, m⟩ := by
  unfold step; rw [if_pos h.1, h.2]; simp; split <;> omega
theorem step_testjmp (h : At f n .testjmp a b) :
    step W me f ⟨n, reg, loc, m⟩ = .go ⟨if W.truth (reg a) then n + 1 + b else n + 1, reg, loc, m⟩ := by
  unfold step; rw [if_pos h.1, h.2]; simp; split <;> omega
theorem step_op {k : Kind} {op : Op} (hk : binOp k = some op) (h : At f n op a b) :
    step W me f ⟨n, reg, loc, m⟩ = St.res ⟨n, reg, loc, m⟩ a (W.op op (reg a) (reg b) m) := by
  unfold step; rw [if_pos h.1, h.2]
  cases k <;> simp only [binOp, Option.some.injEq, reduceCtorEq] at hk <;> subst hk <;> simp
theorem step_loadpn {w : BitVec 64} (hn : n < f.len) (h : f.code n = ⟨.loadpn, (a : Int), w.toInt⟩) :
    step W me f ⟨n, reg, loc, m⟩ = St.res ⟨n, reg, loc, m⟩ a (.ok (W.const (.imm w), m)) := by
  unfold step; rw [if_pos hn, h]; simp
theorem step_ret (h : At f n .ret a b) : step W me f ⟨n, reg, loc, m⟩ = .done (reg a) m := by
  unfold step; rw [if_pos h.1, h.2]; simp

theorem Does.prim_ {x : S → Except E S} {reg' : Nat → V}
    (h : ∀ loc m, step W me f ⟨n, reg, loc, m⟩ = match x m with | .error e => .stop e | .ok m' => .go ⟨n + 1, reg', loc, m'⟩) :
    Does W me f n reg (Send.prim_ x) (n + 1) (fun _ r => r = reg') := by
  intro loc s hA
  have h1 := h loc s.mem
  unfold Send.prim_
  cases hx : x s.mem with
  | error e => rw [hx] at h1; exact ⟨_, .refl _, h1⟩
  | ok m => rw [hx] at h1; exact ⟨_, loc, .step h1 (.refl _), hA, rfl⟩
theorem step_setpath (h : At f n .setpath a b) :
    step W me f ⟨n, reg, loc, m⟩ = match W.set (reg a) (reg (a + 1)) (reg b) m with | .error e => .stop e | .ok m' => .go ⟨n + 1, reg, loc, m'⟩ := by
  unfold step; rw [if_pos h.1, h.2]; simp; rfl
theorem step_settable (h : At f n .settable a b) :
    step W me f ⟨n, reg, loc, m⟩ = match W.put (reg a) (reg (a + 1)) (reg b) m with | .error e => .stop e | .ok m' => .go ⟨n + 1, reg, loc, m'⟩ := by
  unfold step; rw [if_pos h.1, h.2]; simp; rfl
theorem step_global (h : At f n .global a b) :
    step W me f ⟨n, reg, loc, m⟩ = match W.global (reg a) (reg b) m with | .error e => .stop e | .ok m' => .go ⟨n + 1, upd reg a (reg b), loc, m'⟩ := by
  unfold step; rw [if_pos h.1, h.2]; simp; rfl
end

end Potion.Send
