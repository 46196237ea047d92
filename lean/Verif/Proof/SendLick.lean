import Verif.Proof.Send7
import Verif.Proof.Word
/-! Proof of C77: elements, licks, `x(…) = e`. -/
namespace Potion.Send
open Potion Potion.Peg Potion.CompileAll Potion.Vm

variable {V S E : Type} {W : World V S E} {me : V} {dl : List (BitVec 8) → Bool}

section Steps
variable {f : Fn} {n a b : Nat} {reg loc : Nat → V} {m : S}
theorem step_gettuple (h : At f n .gettuple a b) : step W me f ⟨n, reg, loc, m⟩ =
    St.res ⟨n, reg, loc, m⟩ a (W.tupleAt (reg a) (if 1024 ≤ b then reg (b - 1024) else W.const (.imm (pnNum b))) m) := by
  unfold step; rw [if_pos h.1, h.2]; simp
theorem step_gettable (h : At f n .gettable a b) : step W me f ⟨n, reg, loc, m⟩ = St.res ⟨n, reg, loc, m⟩ a (W.tableAt (reg a) (reg b) m) := by
  unfold step; rw [if_pos h.1, h.2]; simp
theorem step_newlick (h : At f n .newlick a b) : step W me f ⟨n, reg, loc, m⟩ =
    St.res ⟨n, reg, loc, m⟩ a (W.lick (reg a) (if a < b then reg (a + 1) else W.const .nil) (if a + 1 < b then reg b else W.const .nil) m) := by
  unfold step; rw [if_pos h.1, h.2]; simp
theorem step_callset (h : At f n .callset a b) : step W me f ⟨n, reg, loc, m⟩ = St.res ⟨n, reg, loc, m⟩ a (.ok (W.callset (reg b) m, m)) := by
  unfold step; rw [if_pos h.1, h.2]; simp
theorem step_loadpn0 (h : At f n .loadpn a 0) : step W me f ⟨n, reg, loc, m⟩ = St.res ⟨n, reg, loc, m⟩ a (.ok (W.const .nil, m)) := by
  unfold step; rw [if_pos h.1, h.2]; rfl
end Steps

/-- A variable is read into register `a`; from now on it is one. -/
theorem emits_read {K} {x : Ident} {a : Nat} (ha : a < 2048) :
    Emits (fun st => some ((st.locl (.str x)).1.asm .getlocal a (st.locl (.str x)).2)) K (addName K x)
      (fun f n0 n1 => ∀ regs, Does W me f n0 regs (readVar x) n1 (fun v r => r = upd regs a v)) := by
  intro st hG
  refine ⟨_, rfl, (grow_locl ..).trans (grow_asm ..), good_asm (good_locl hG) .., fun f hH hf regs => ?_⟩
  have hi : find f.locals (.str x) = some (st.locl (.str x)).2 := find_prefix ((grow_asm ..).locs.trans hH.locs) find_locl
  have hlt := find_lt hi
  have := hf.2.2.1
  exact Does.readVar (at_asm (st := (st.locl (.str x)).1) hH (Nat.le_refl _) (.refl _) (by omega) (by omega)) hi

theorem Does.ask {f : Fn} {n a : Nat} {regs : Nat → V} {x : S → V} (h : ∀ loc m, step W me f ⟨n, regs, loc, m⟩ = St.res ⟨n, regs, loc, m⟩ a (.ok (x m, m))) :
    Does W me f n regs (ask x : M V S E V) (n + 1) (fun v r => r = upd regs a v) := by
  intro loc s hA
  exact ⟨_, loc, .step (h loc s.mem) (.refl _), hA, rfl⟩

theorem bind_assoc' {α β γ : Type} (x : M V S E α) (g : α → M V S E β) (h : β → M V S E γ) : ((x >>= g) >>= h) = (x >>= fun u => g u >>= h) := by
  funext s
  cases hx : x s with
  | error e => rw [bind_error (bind_error hx), bind_error hx]
  | ok p =>
    obtain ⟨a, s'⟩ := p
    rw [bind_ok (x := x) hx]
    cases hg : g a s' with
    | error e => rw [bind_error (e := e) (by rw [bind_ok hx, hg]), bind_error hg]
    | ok q => rw [bind_ok (a := q.1) (s' := q.2) (by rw [bind_ok hx, hg]), bind_ok hg]

/-! ### Elements -/

/-- What follows the variable of `x[k]`. -/
def keyCode (k : Key) (reg : Nat) (st : CSt) : CSt :=
  match k with
  | .var x => CSt.regs (CSt.asm ((st.locl (.str x)).1.asm .getlocal (reg + 1) (st.locl (.str x)).2) .gettuple reg (reg + 1 + 1024)) (reg + 1)
  | .num i => st.asm .gettuple reg i
  | .lit v => CSt.regs (CSt.asm ((st.const v).1.asm .loadk (reg + 1) (st.const v).2) .gettable reg (reg + 1)) (reg + 1)

theorem index_key {x : Ident} {k : Key} {reg st K} (h : okKey k = true) (hG : Good st K) :
    index (.str x) (leaf .list (.tup [leaf .lick (keyTree k)])) reg st = some (keyCode k reg ((st.locl (.str x)).1.asm .getlocal reg (st.locl (.str x)).2)) := by
  unfold index
  rw [var_good hG]
  cases k with
  | var k => rfl
  | num i =>
    simp only [okKey, decide_eq_true_eq] at h
    have h1 : isInt (pnNum i) = true := isInt_pnNum i
    have h2 : pnInt (pnNum (i : Int)) = i := pnInt_pnNum_of_fits ⟨by omega, by omega⟩
    simp only [leaf, keyTree, keyCode]
    rw [if_pos h1, h2, if_neg (by omega)]
    rfl
  | lit v =>
    cases v with
    | str s => rfl
    | dbl d => rfl
    | _ => simp [okKey] at h

theorem emits_key {k : Key} {reg K} (h : okKey k = true) (hr : reg < 256) : Emits (fun st => some (keyCode k reg st)) K (namesK k K)
    (fun f n0 n1 => ∀ regs o, regs reg = o → Does W me f n0 regs (evalKey W o k) n1 (Post reg regs)) := by
  cases k with
  | var x =>
    have h1 := (Emits.seq (emits_read (W := W) (me := me) (K := K) (x := x) (a := reg + 1) (by omega))
      (emits_asm' (op := .gettuple) (x := reg) (y := (reg : Int) + 1 + 1024) (a := reg) (b := reg + 1 + 1024) rfl rfl (by omega) (by omega))).post (r := reg + 1)
    refine (h1.congr fun st _ => rfl).mono ?_
    rintro f n0 n1 _ ⟨n2, q1, rfl, q2⟩ regs o ho
    rw [evalKey]
    refine Does.bind (q1 regs) fun v r hr' => (Does.prim (a := reg) fun loc m => ?_).conseq fun v' r' hr'' => ⟨?_, fun i hi => ?_⟩
    · rw [step_gettuple q2, if_pos (by omega), hr', show reg + 1 + 1024 - 1024 = reg + 1 by omega, upd_same, upd_other (by omega), ho]
    · rw [hr'', upd_same]
    · rw [hr'', hr', upd_other (by omega), upd_other (by omega)]
  | num i =>
    simp only [okKey, decide_eq_true_eq] at h
    refine ((emits_asm (K := K) (op := .gettuple) (a := reg) (b := i) (by omega) (by omega)).congr fun st _ => rfl).mono ?_
    rintro f n0 n1 _ ⟨rfl, q2⟩ regs o ho
    rw [evalKey]
    refine (Does.prim (a := reg) fun loc m => ?_).conseq fun v' r' hr'' => ⟨?_, fun i hi => ?_⟩
    · rw [step_gettuple q2, if_neg (by omega), ho]
    · rw [hr'', upd_same]
    · rw [hr'', upd_other (by omega)]
  | lit v =>
    have h1 := (Emits.seq (emits_loadk (K := K) (v := v) (a := reg + 1) (by omega))
      (emits_asm' (op := .gettable) (x := reg) (y := (reg : Int) + 1) (a := reg) (b := reg + 1) rfl rfl (by omega) (by omega))).post (r := reg + 1)
    refine (h1.congr fun st _ => rfl).mono ?_
    rintro f n0 n1 _ ⟨n2, ⟨rfl, b, q0, q0'⟩, rfl, q2⟩ regs o ho
    rw [evalKey]
    refine Does.silent (fun loc m => step_loadk q0 q0') ((Does.prim (a := reg) fun loc m => ?_).conseq fun v' r' hr'' => ⟨?_, fun i hi => ?_⟩)
    · rw [step_gettable q2, upd_same, upd_other (by omega), ho]
    · rw [hr'', upd_same]
    · rw [hr'', upd_other (by omega), upd_other (by omega)]

theorem emits_index {n reg K} {x : Ident} {k : Key} (hr : reg < 256) (h : okKey k = true) :
    Emits (asmb dl (n + 1) (leaf .value (.node .lick (leaf .msg (.str x)) (leaf .list (.tup [leaf .lick (keyTree k)])) .nil)) 0 reg) K (namesK k (addName K x))
      (fun f n0 n1 => ∀ regs, Does W me f n0 regs (readVar x >>= fun o => evalKey W o k) n1 (Post reg regs)) := by
  have h1 := Emits.seq (emits_read (W := W) (me := me) (K := K) (x := x) (a := reg) (by omega)) (emits_key (W := W) (me := me) (K := addName K x) h hr)
  refine ((h1.pre (r := reg)).congr fun st hG => ?_).mono ?_
  · unfold leaf; rw [asmb_leaf]
    show index (.str x) (leaf .list (.tup [leaf .lick (keyTree k)])) reg (st.regs reg) = _
    rw [index_key h (good_regs hG _)]; rfl
  · rintro f n0 n1 _ ⟨n2, q1, q2⟩ regs
    refine Does.bind (q1 regs) fun v r hr' => (q2 r v ?_).conseq fun v' r' ⟨p1, p2⟩ => ⟨p1, fun i hi => ?_⟩
    · rw [hr', upd_same]
    · rw [p2 i hi, hr', upd_other (by omega)]

/-! ### `x++` -/

theorem one_small (up : Bool) : -2048 ≤ (one up).toInt ∧ (one up).toInt < 2048 := by cases up <;> decide
theorem one_or (pre up : Bool) : (if pre then one up ^^^ 1#64 else one up) ||| 1#64 = one up := by cases up <;> cases pre <;> decide
theorem one_int (pre up : Bool) : isInt (if pre then one up ^^^ 1#64 else one up) = !pre := by cases up <;> cases pre <;> decide

/-- From the constant on: `x` is in register `b`, the sum goes there and into `x`. -/
def incCode (up : Bool) (b num : Nat) (st : CSt) : CSt :=
  (((st.asm .loadpn ((b + 1 : Nat) : Int) (one up).toInt).asm .add b ((b + 1 : Nat) : Int)).asm .setlocal b num).regs (b + 1)
theorem grow_inc {up b num} {st : CSt} : Grow st (incCode up b num st) :=
  (grow_asm ..).trans ((grow_asm ..).trans ((grow_asm ..).trans (grow_regs ..)))

theorem does_inc {f : Fn} {a st : CSt} {up : Bool} {b num : Nat} {x : Ident} (hH : Holds f a (incCode up b num st)) (hb : b < 256) (hn : num < 2048) (ha : a.len ≤ st.len)
    (hx : find f.locals (.str x) = some num) {regs : Nat → V} {g : V → V} {v : V} (hv : regs b = v) {Q : V → (Nat → V) → Prop}
    (hQ : ∀ w r, (∀ i < b, r i = regs i) → r b = w → Q (g w) r) :
    Does W me f st.len regs (prim (W.op .add v (W.const (.imm (one up)))) >>= fun w => writeVar x w >>= fun _ => pure (g w)) (incCode up b num st).len Q := by
  have g2 := grow_asm (st.asm .loadpn ((b + 1 : Nat) : Int) (one up).toInt) .add b ((b + 1 : Nat) : Int)
  have g3 := grow_asm ((st.asm .loadpn ((b + 1 : Nat) : Int) (one up).toInt).asm .add b ((b + 1 : Nat) : Int)) .setlocal b num
  have g4 := grow_regs (((st.asm .loadpn ((b + 1 : Nat) : Int) (one up).toInt).asm .add b ((b + 1 : Nat) : Int)).asm .setlocal b num) (b + 1)
  have h2 := at_asm (st := st.asm .loadpn ((b + 1 : Nat) : Int) (one up).toInt) (op := .add) (x := b) (y := b + 1) hH (by rw [len_asm]; omega) (g3.trans g4) (by omega) (by omega)
  have h3 := at_asm (st := (st.asm .loadpn ((b + 1 : Nat) : Int) (one up).toInt).asm .add b ((b + 1 : Nat) : Int)) (op := .setlocal) (x := b) (y := num) hH
    (by rw [len_asm, len_asm]; omega) g4 (by omega) (by omega)
  have hlen : (incCode up b num st).len = st.len + 1 + 1 + 1 := by unfold incCode; rw [len_regs, len_asm, len_asm, len_asm]
  have hfl := hH.len
  obtain ⟨o1, o2⟩ := one_small up
  have h1 : f.code st.len = ⟨.loadpn, ((b + 1 : Nat) : Int), (one up).toInt⟩ := by
    have h0 : (incCode up b num st).code st.len = _ := ((g2.trans g3).trans g4).code st.len (by rw [len_asm]; omega)
    rw [hH.code st.len ha (by omega), h0]
    simp only [CSt.asm, if_pos]
    rw [trunc_id (by omega) (by omega), trunc_id (by omega) (by omega)]
  rw [len_asm] at h2
  rw [len_asm, len_asm] at h3
  rw [hlen]
  refine Does.silent (fun loc m => step_loadpn (by omega) h1) (Does.bind (Does.prim (a := b) fun loc m => ?_) fun w r hr => Does.bind (Does.writeVar (v := w) h3 hx ?_) fun _ r' hr' =>
    Does.pure (hQ w r' (fun i hi => ?_) ?_))
  · rw [step_op (k := .plus) rfl h2, upd_same, upd_other (by omega), hv]
  · rw [hr, upd_same]
  · rw [hr', hr, upd_other (by omega), upd_other (by omega)]
  · rw [hr', hr, upd_same]

theorem emits_inc {n reg K} {pre up : Bool} {x : Ident} (hr : reg < 256) :
    Emits (asmb dl (n + 1) (.node .inc (leaf .msg (.str x)) (.imm (if pre then one up ^^^ 1#64 else one up)) .nil) 0 reg) K (addName K x)
      (fun f n0 n1 => ∀ regs, Does W me f n0 regs (readVar x >>= fun v => prim (W.op .add v (W.const (.imm (one up)))) >>= fun w => writeVar x w >>= fun _ =>
        pure (if pre then w else v)) n1 (Post reg regs)) := by
  have key : ∀ st, Good st K → incr (.str x) (if pre then one up ^^^ 1#64 else one up) reg st =
      let s := (st.locl (.str x)).1.asm .getlocal reg (st.locl (.str x)).2
      if pre then incCode up reg (st.locl (.str x)).2 s
      else incCode up ((reg + 1) % 256) (st.locl (.str x)).2 ((s.wide (reg + 1)).asm .move ((reg + 1) % 256 : Nat) reg) := by
    intro st hG
    unfold incr
    rw [var_good hG]
    dsimp only
    rw [one_or, one_int]
    cases pre <;> rfl
  have main : Emits (fun st => some (incr (.str x) (if pre then one up ^^^ 1#64 else one up) reg st)) K (addName K x)
      (fun f n0 n1 => ∀ regs, Does W me f n0 regs (readVar x >>= fun v => prim (W.op .add v (W.const (.imm (one up)))) >>= fun w => writeVar x w >>= fun _ =>
        pure (if pre then w else v)) n1 (Post reg regs)) := by
    intro st hG
    dsimp only
    rw [key st hG]
    have gl := (grow_locl st (.str x)).trans (grow_asm _ .getlocal reg (st.locl (.str x)).2)
    have hl : ((st.locl (.str x)).1.asm .getlocal reg (st.locl (.str x)).2).len = st.len + 1 := rfl
    have hgood := good_asm (good_locl (x := x) hG) .getlocal reg (st.locl (.str x)).2
    cases pre with
    | true =>
      simp only [if_true]
      refine ⟨_, rfl, gl.trans grow_inc, good_of hgood (by unfold incCode CSt.regs; split <;> rfl) grow_inc, fun f hH hf regs => ?_⟩
      have hi : find f.locals (.str x) = some (st.locl (.str x)).2 := find_prefix (((grow_asm ..).trans grow_inc).locs.trans hH.locs) find_locl
      have hlt := find_lt hi
      have := hf.2.2.1
      refine Does.bind (Does.readVar (at_asm (st := (st.locl (.str x)).1) hH (Nat.le_refl _) grow_inc (by omega) (by omega)) hi) fun v r hr' => ?_
      exact does_inc (g := fun w => w) hH hr (by omega) (by omega) hi (by rw [hr', upd_same]) fun w r' h1 h2 => ⟨h2, fun i hi => by rw [h1 i hi, hr', upd_other (by omega)]⟩
    | false =>
      simp only [Bool.false_eq_true, if_false]
      have gm := (grow_wide ((st.locl (.str x)).1.asm .getlocal reg (st.locl (.str x)).2) (reg + 1)).trans (grow_asm _ .move ((reg + 1) % 256 : Nat) reg)
      refine ⟨_, rfl, gl.trans (gm.trans grow_inc), good_of (good_asm (good_wide hgood (reg + 1)) .move ((reg + 1) % 256 : Nat) reg) (by unfold incCode CSt.regs; split <;> rfl) grow_inc,
        fun f hH hf regs => ?_⟩
      have hi : find f.locals (.str x) = some (st.locl (.str x)).2 := find_prefix (((grow_asm ..).trans (gm.trans grow_inc)).locs.trans hH.locs) find_locl
      have hlt := find_lt hi
      have := hf.2.2.1
      have hw := wide_small hH hf ((grow_asm ..).trans grow_inc)
      rw [mod_id hw] at *
      have hm := at_asm (st := ((st.locl (.str x)).1.asm .getlocal reg (st.locl (.str x)).2).wide (reg + 1)) (op := .move) (x := reg + 1) (y := reg) hH (by rw [len_wide, hl]; omega)
        grow_inc (by omega) (by omega)
      rw [len_wide, hl] at hm
      refine Does.bind (Does.readVar (at_asm (st := (st.locl (.str x)).1) hH (Nat.le_refl _) (gm.trans grow_inc) (by omega) (by omega)) hi) fun v r hr' => ?_
      refine Does.silent (v := v) (fun loc m => by rw [step_move hm, hr', upd_same]) ?_
      exact does_inc (st := (((st.locl (.str x)).1.asm .getlocal reg (st.locl (.str x)).2).wide (reg + 1)).asm .move (reg + 1 : Nat) reg) (g := fun _ => v) hH hw (by omega)
        (by rw [len_asm, len_wide, hl]; omega) hi (by rw [upd_same]) fun w r' h1 h2 => ⟨by rw [h1 reg (by omega), upd_other (by omega), hr', upd_same],
          fun i hi => by rw [h1 i (by omega), upd_other (by omega), hr', upd_other (by omega)]⟩
  refine (main.pre (r := reg)).congr fun st hG => ?_
  rw [asmb_leaf]
  rfl

/-! ### Licks -/

def LicksOk (W : World V S E) (me : V) (dl : List (BitVec 8) → Bool) (n : Nat) (ls : Lks) (K : List Ident) : Prop :=
  ∀ reg < 256, ∀ i, Emits (each (fun _ v => listItem (asmb dl n) reg v) i (lickTrees ls)) K (namesLk ls K)
    (fun f n0 n1 => ∀ regs t, regs reg = t → Does W me f n0 regs (evalK W me ls K t) n1 (Post reg regs))

theorem licksOk_nil {n K} : LicksOk W me dl n .nil K := by
  intro reg hr i
  rw [lickTrees, namesLk]
  refine (emits_id.congr fun st _ => by rw [each]).mono ?_
  rintro f n0 n1 _ rfl regs t ht
  rw [evalK]; exact Does.pure ⟨ht, fun _ _ => rfl⟩

/-- What is in a lick is one node. -/
theorem inner_single {c : Chain} (h : inner c = true) (hh : c.isHere = false) : ∃ k a b d, items c = [.node k a b d] ∧ single (items c) = .node k a b d := by
  cases c with
  | lit v => exact ⟨_, _, _, _, by rw [items]; rfl, by rw [items]; rfl⟩
  | index x k => exact ⟨_, _, _, _, by rw [items]; rfl, by rw [items]; rfl⟩
  | licks ls => exact ⟨_, _, _, _, by rw [items]; rfl, by rw [items]; rfl⟩
  | here => simp [Chain.isHere] at hh
  | _ => simp [inner] at h

theorem emits_inner {n c K} (h : inner c = true) (hh : c.isHere = false) {reg} (hc : ChainOk W me dl n reg c K) :
    Emits (asmb dl n (single (items c)) 0 reg) K (namesC c K) (fun f n0 n1 => ∀ regs, Does W me f n0 regs (evalC W me c K) n1 (Post reg regs)) := by
  obtain ⟨k, a, b, d, e1, e2⟩ := inner_single h hh
  unfold ChainOk at hc
  rw [e1] at hc
  rw [e2]
  refine (hc.congr fun st _ => each_one.symm).mono fun f n0 n1 _ q regs => (q regs).conseq fun v r ⟨p1, p2, p3⟩ => ⟨p1 hh, p3⟩

theorem lick_item {rec : Rec} {x : Ident} {a t : Tree} {reg st} : listItem rec reg (.node .lick (.str x) a t) st =
    (rec (.node .lick (.str x) a t) 0 ((reg + 1) % 256) (st.wide (reg + 1))).bind fun st => some ((st.asm .settuple reg ((reg : Int) + 1)).regs (reg + 1)) :=
  listItem_node (by decide)

theorem lick_here {n : Nat} {x : Ident} {count reg st} : asmb dl (n + 1) (.node .lick (.str x) .nil .nil) count reg st =
    (some (((st.regs reg).const (.str x)).1.asm .loadk reg ((st.regs reg).const (.str x)).2)).bind fun st => (some (st.asm .newlick reg reg)).bind fun st => some (st.regs reg) := by
  rfl
theorem lick_in {n : Nat} {x : Ident} {k a b d count reg st} : asmb dl (n + 1) (.node .lick (.str x) (.node k a b d) .nil) count reg st =
    (some (((st.regs reg).const (.str x)).1.asm .loadk reg ((st.regs reg).const (.str x)).2)).bind fun st =>
      ((some (st.wide (reg + 1))).bind (asmb dl n (.node k a b d) 0 ((reg + 1) % 256))).bind fun st => (some (st.asm .newlick reg ((reg + 1) % 256 : Nat))).bind fun st =>
        some (st.regs ((reg + 1) % 256)) := by
  show lickNode _ _ _ _ _ _ = _
  unfold lickNode
  show (Option.bind (Option.map _ (asmb dl n (.node k a b d) 0 ((reg + 1) % 256) _)) _) = _
  rw [Option.bind_map]
  rfl
theorem lick_attr {n : Nat} {x : Ident} {t1 t2 t3 count reg st} : asmb dl (n + 1) (.node .lick (.str x) .nil (.node .list t1 t2 t3)) count reg st =
    (some (((st.regs reg).const (.str x)).1.asm .loadk reg ((st.regs reg).const (.str x)).2)).bind fun st =>
      (some ((st.wide (reg + 1)).asm .loadpn ((reg + 1) % 256 : Nat) 0)).bind fun st => (some (st.wide ((reg + 1) % 256 + 1))).bind fun st =>
        (asmb dl n (.node .list t1 t2 t3) 0 (((reg + 1) % 256 + 1) % 256) st).bind fun st =>
          (some (st.asm .newlick reg (((reg + 1) % 256 + 1) % 256 : Nat))).bind fun st => some (st.regs (((reg + 1) % 256 + 1) % 256)) := by
  refine Eq.trans (b := Option.bind (Option.map (fun st => (st, ((reg + 1) % 256 + 1) % 256)) (asmb dl n (.node .list t1 t2 t3) 0 (((reg + 1) % 256 + 1) % 256) _))
    fun p => some ((p.1.asm .newlick reg p.2).regs p.2)) rfl ?_
  rw [Option.bind_map]
  rfl
theorem lick_both {n : Nat} {x : Ident} {k a b d t1 t2 t3 count reg st} : asmb dl (n + 1) (.node .lick (.str x) (.node k a b d) (.node .list t1 t2 t3)) count reg st =
    (some (((st.regs reg).const (.str x)).1.asm .loadk reg ((st.regs reg).const (.str x)).2)).bind fun st =>
      (some (st.wide (reg + 1))).bind fun st => (asmb dl n (.node k a b d) 0 ((reg + 1) % 256) st).bind fun st =>
        (some (st.wide ((reg + 1) % 256 + 1))).bind fun st => (asmb dl n (.node .list t1 t2 t3) 0 (((reg + 1) % 256 + 1) % 256) st).bind fun st =>
          (some (st.asm .newlick reg (((reg + 1) % 256 + 1) % 256 : Nat))).bind fun st => some (st.regs (((reg + 1) % 256 + 1) % 256)) := by
  refine Eq.trans (b := Option.bind (Option.map (fun st => (st, (reg + 1) % 256)) (asmb dl n (.node k a b d) 0 ((reg + 1) % 256) _)) fun p =>
    Option.bind (Option.map (fun st => (st, (p.2 + 1) % 256)) (asmb dl n (.node .list t1 t2 t3) 0 ((p.2 + 1) % 256) (p.1.wide (p.2 + 1))))
    fun p => some ((p.1.asm .newlick reg p.2).regs p.2)) rfl ?_
  rw [Option.bind_map]
  refine congrArg (Option.bind _) (funext fun st1 => ?_)
  show Option.bind (Option.map _ _) _ = _
  rw [Option.bind_map]
  rfl

/-- A lick without attributes. -/
theorem emits_lick {n x c K reg} (hr : reg < 256) (h : inner c = true) (hc : ∀ reg < 256, ChainOk W me dl n reg c K) :
    Emits (asmb dl (n + 1) (.node .lick (.str x) (single (items c)) .nil) 0 reg) K (namesC c K)
      (fun f n0 n1 => ∀ regs, Does W me f n0 regs (orNil W c (evalC W me c K) >>= fun i => prim (W.lick (W.const (.str x)) i (W.const .nil))) n1 (Post reg regs)) := by
  have h0 := emits_loadk (K := K) (v := .str x) (a := reg) (by omega)
  cases hh : c.isHere with
  | true =>
    have : c = .here := by cases c <;> simp [Chain.isHere] at hh; rfl
    subst this
    rw [namesC, items]
    have h1 := Emits.seq h0 ((emits_asm (op := .newlick) (a := reg) (b := reg) (by omega) (by omega)).post (r := reg))
    refine ((h1.pre (r := reg)).congr fun st _ => lick_here).mono ?_
    rintro f n0 n1 _ ⟨n2, ⟨rfl, b, q0, q0'⟩, rfl, q1⟩ regs
    have e0 : orNil W Chain.here (evalC W me Chain.here K) = pure (W.const .nil) := rfl
    rw [e0]
    refine Does.silent (fun loc m => step_loadk q0 q0') ?_
    show Does W me f (n0 + 1) _ (prim (W.lick (W.const (.str x)) (W.const .nil) (W.const .nil))) _ _
    refine (Does.prim (a := reg) fun loc m => ?_).conseq fun v' r' hr' => ⟨?_, fun i hi => ?_⟩
    · rw [step_newlick q1, if_neg (by omega), if_neg (by omega), upd_same]
    · rw [hr', upd_same]
    · rw [hr', upd_other (by omega), upd_other (by omega)]
  | false =>
    have h1 := Emits.seq h0 (Emits.seq (Emits.seq (emits_wide (n := reg + 1)) (emits_inner h hh (hc ((reg + 1) % 256) (Nat.mod_lt _ (by omega)))))
      ((emits_asm (op := .newlick) (a := reg) (b := (reg + 1) % 256) (by omega) (by omega)).post (r := (reg + 1) % 256)))
    refine ((h1.pre (r := reg)).congr fun st _ => ?_).mono ?_
    · obtain ⟨k, a, b, d, e1, e2⟩ := inner_single h hh
      rw [e2, lick_in]
    · rintro f n0 n1 _ ⟨n2, ⟨rfl, b, q0, q0'⟩, n3, ⟨n4, ⟨rfl, hw⟩, q1⟩, rfl, q2⟩ regs
      rw [mod_id hw] at q1 q2
      unfold orNil
      rw [hh, if_neg (by simp)]
      refine Does.silent (fun loc m => step_loadk q0 q0') (Does.bind (q1 _) fun v r ⟨p1, p2⟩ => (Does.prim (a := reg) fun loc m => ?_).conseq fun v' r' hr' => ⟨?_, fun i hi => ?_⟩)
      · rw [step_newlick q2, if_pos (by omega), if_neg (by omega), p1, p2 reg (by omega), upd_same]
      · rw [hr', upd_same]
      · rw [hr', upd_other (by omega), p2 i (by omega), upd_other (by omega)]

/-- A lick with attributes. -/
theorem emits_attrs {n x c as K reg} (hr : reg < 256) (h : inner c = true) (hc : ∀ reg < 256, ChainOk W me dl (n + 1) reg c K)
    (ha : ListOk W me dl n as (namesC c K)) :
    Emits (asmb dl (n + 2) (.node .lick (.str x) (single (items c)) (leaf .list (tupOf (trees as)))) 0 reg) K (namesL as (namesC c K))
      (fun f n0 n1 => ∀ regs, Does W me f n0 regs (orNil W c (evalC W me c K) >>= fun i => prim W.tuple >>= fun u => evalL W me as (namesC c K) u >>= fun a =>
        prim (W.lick (W.const (.str x)) i a)) n1 (Post reg regs)) := by
  have h0 := emits_loadk (K := K) (v := .str x) (a := reg) (by omega)
  have hl : ∀ r < 256, Emits (asmb dl (n + 1) (leaf .list (tupOf (trees as))) 0 r) (namesC c K) (namesL as (namesC c K)) (fun f n0 n1 => ∀ regs,
      Does W me f n0 regs (prim W.tuple >>= fun u => evalL W me as (namesC c K) u) n1 (Post r regs)) := fun r hr => by
    have h1 := chainOk_list hr ha
    unfold ChainOk at h1
    rw [items, namesC, evalC] at h1
    exact (h1.congr fun st _ => each_one.symm).mono fun f n0 n1 _ q regs => (q regs).conseq fun v r ⟨p1, p2, p3⟩ => ⟨p1 rfl, p3⟩
  have hend : ∀ (f : Fn) (n2 : Nat) (r2 : Nat → V) (i : V), At f n2 .newlick reg (reg + 2) → r2 reg = W.const (.str x) → r2 (reg + 1) = i → ∀ a, r2 (reg + 2) = a →
      Does W me f n2 r2 (prim (W.lick (W.const (.str x)) i a)) (n2 + 1) (fun v r => r = upd r2 reg v) := fun f n2 r2 i hat e0 e1 a e2 =>
    Does.prim (a := reg) fun loc m => by rw [step_newlick hat, if_pos (by omega), if_pos (by omega), e0, e1, e2]
  have htail : Emits (fun st => (some (st.wide ((reg + 1) % 256 + 1))).bind fun st => (asmb dl (n + 1) (leaf .list (tupOf (trees as))) 0 (((reg + 1) % 256 + 1) % 256) st).bind
      fun st => (some (st.asm .newlick reg (((reg + 1) % 256 + 1) % 256 : Nat))).bind fun st => some (st.regs (((reg + 1) % 256 + 1) % 256))) (namesC c K) (namesL as (namesC c K))
      (fun f n0 n1 => reg + 1 < 256 → ∀ regs i, regs reg = W.const (.str x) → regs (reg + 1) = i →
        Does W me f n0 regs (prim W.tuple >>= fun u => evalL W me as (namesC c K) u >>= fun a => prim (W.lick (W.const (.str x)) i a)) n1 (Post reg regs)) := by
    refine (Emits.seq emits_wide (Emits.seq (hl (((reg + 1) % 256 + 1) % 256) (Nat.mod_lt _ (by omega)))
      ((emits_asm (op := .newlick) (a := reg) (b := ((reg + 1) % 256 + 1) % 256) (by omega) (by omega)).post (r := ((reg + 1) % 256 + 1) % 256)))).mono ?_
    rintro f n0 n1 _ ⟨n2, ⟨rfl, hw⟩, n3, q1, rfl, q2⟩ hw1 regs i e0 e1
    rw [mod_id hw1] at hw
    rw [mod_id hw1, mod_id hw] at q1 q2
    have e : (prim W.tuple >>= fun u => evalL W me as (namesC c K) u >>= fun a => prim (W.lick (W.const (.str x)) i a) : M V S E V) =
        ((prim W.tuple >>= fun u => evalL W me as (namesC c K) u) >>= fun a => prim (W.lick (W.const (.str x)) i a)) := by
      exact (bind_assoc' ..).symm
    rw [e]
    refine Does.bind (q1 regs) fun a r ⟨p1, p2⟩ => (hend f _ r i q2 ?_ ?_ a p1).conseq fun v r' hr' => ⟨?_, fun j hj => ?_⟩
    · rw [p2 reg (by omega), e0]
    · rw [p2 (reg + 1) (by omega), e1]
    · rw [hr', upd_same]
    · rw [hr', upd_other (by omega), p2 j (by omega)]
  cases hh : c.isHere with
  | true =>
    have : c = .here := by cases c <;> simp [Chain.isHere] at hh; rfl
    subst this
    rw [namesC] at htail ⊢
    have h1 := Emits.seq h0 (Emits.seq (Emits.seq (emits_wide (n := reg + 1)) (emits_asm_ (op := .loadpn) (a := (reg + 1) % 256) (by omega))) htail)
    refine ((h1.pre (r := reg)).congr fun st _ => ?_).mono ?_
    · rw [items]; exact lick_attr
    · rintro f n0 n1 _ ⟨n2, ⟨rfl, b, q0, q0'⟩, n3, ⟨n4, ⟨rfl, hw⟩, rfl, q1⟩, q2⟩ regs
      rw [mod_id hw] at q1
      have e0 : orNil W Chain.here (evalC W me Chain.here K) = pure (W.const .nil) := rfl
      rw [e0]
      refine Does.silent (fun loc m => step_loadk q0 q0') (Does.silent (fun loc m => step_loadpn0 q1) ((q2 hw _ (W.const .nil) ?_ upd_same).conseq fun v r ⟨p1, p2⟩ => ⟨p1, fun i hi => ?_⟩))
      · rw [upd_other (by omega), upd_same]
      · rw [p2 i hi, upd_other (by omega), upd_other (by omega)]
  | false =>
    have h1 := Emits.seq h0 (Emits.seq (emits_wide (n := reg + 1)) (Emits.seq (emits_inner h hh (hc ((reg + 1) % 256) (Nat.mod_lt _ (by omega)))) htail))
    refine ((h1.pre (r := reg)).congr fun st _ => ?_).mono ?_
    · obtain ⟨k, a, b, d, e1, e2⟩ := inner_single h hh
      rw [e2]; exact lick_both
    · rintro f n0 n1 _ ⟨n2, ⟨rfl, b, q0, q0'⟩, n3, ⟨rfl, hw⟩, n4, q1, q2⟩ regs
      rw [mod_id hw] at q1
      unfold orNil
      rw [hh, if_neg (by simp)]
      refine Does.silent (fun loc m => step_loadk q0 q0') (Does.bind (q1 _) fun v r ⟨p1, p2⟩ => (q2 hw r v ?_ p1).conseq fun v' r' ⟨s1, s2⟩ => ⟨s1, fun i hi => ?_⟩)
      · rw [p2 reg (by omega), upd_same]
      · rw [s2 i hi, p2 i (by omega), upd_other (by omega)]

/-- An element is made and added to the list. -/
theorem emits_elem {n v K K1 i reg k a b c rest} {x : M V S E V} {K2} {g : V → M V S E V} (hr : reg < 256) (hv : v = .node k a b c) (hk : k ≠ .assign)
    (h : ∀ reg < 256, Emits (asmb dl n v 0 reg) K K1 (fun f n0 n1 => ∀ regs, Does W me f n0 regs x n1 (Post reg regs)))
    (hs : ∀ i, Emits (each (fun _ v => listItem (asmb dl n) reg v) i rest) K1 K2
      (fun f n0 n1 => ∀ regs t, regs reg = t → Does W me f n0 regs (g t) n1 (Post reg regs))) :
    Emits (each (fun _ v => listItem (asmb dl n) reg v) i (v :: rest)) K K2
      (fun f n0 n1 => ∀ regs t, regs reg = t → Does W me f n0 regs (x >>= fun l => prim (W.push t l) >>= g) n1 (Post reg regs)) := by
  have h1 := Emits.seq (emits_wide (n := reg + 1)) (h ((reg + 1) % 256) (Nat.mod_lt _ (by omega)))
  have h2 := Emits.seq (Emits.seq h1 ((emits_asm' (op := .settuple) (x := reg) (y := (reg : Int) + 1) (a := reg) (b := reg + 1) rfl rfl (by omega) (by omega)).post (r := reg + 1)))
    (hs (i + 1))
  refine (h2.congr fun st _ => ?_).mono ?_
  · rw [each_cons, hv, listItem_node hk]; rfl
  · rintro f n0 n1 _ ⟨n2, ⟨n3, ⟨n4, ⟨rfl, hw⟩, q1⟩, rfl, q2⟩, q3⟩ regs t ht
    rw [mod_id hw] at q1
    refine Does.bind (q1 regs) fun v r ⟨p1, p2⟩ => ?_
    refine Does.bind (Does.prim (a := reg) fun loc m => ?_) fun t' r' hr' => (q3 r' t' ?_).conseq fun v' r'' ⟨s1, s2⟩ => ⟨s1, fun j hj => ?_⟩
    · rw [step_settuple q2, p1, p2 reg (by omega), ht]
    · rw [hr', upd_same]
    · rw [s2 j hj, hr', upd_other (by omega), p2 j (by omega)]

theorem licksOk_item {n x c r K} (h : inner c = true) (hc : ∀ reg < 256, ChainOk W me dl n reg c K) (hr : LicksOk W me dl (n + 1) r (namesC c K)) :
    LicksOk W me dl (n + 1) (.item x c r) K := by
  intro reg hreg i
  rw [lickTrees, namesLk]
  refine (emits_elem hreg rfl (by decide) (fun reg hr => emits_lick hr h hc) (fun i => hr reg hreg i)).mono fun f n0 n1 _ q regs t ht => ?_
  rw [evalK]
  have := q regs t ht
  rw [bind_assoc'] at this
  exact this

theorem licksOk_attrs {n x c as r K} (h : inner c = true) (hc : ∀ reg < 256, ChainOk W me dl (n + 1) reg c K) (ha : ListOk W me dl n as (namesC c K))
    (hr : LicksOk W me dl (n + 2) r (namesL as (namesC c K))) : LicksOk W me dl (n + 2) (.attrs x c as r) K := by
  intro reg hreg i
  rw [lickTrees, namesLk]
  refine (emits_elem hreg rfl (by decide) (fun reg hr => emits_attrs hr h hc ha) (fun i => hr reg hreg i)).mono fun f n0 n1 _ q regs t ht => ?_
  rw [evalK]
  have := q regs t ht
  simp only [bind_assoc'] at this
  exact this

theorem chainOk_licks {n ls K reg} (hr : reg < 256) (h : LicksOk W me dl n ls K) : ChainOk W me dl (n + 1) reg (.licks ls) K := by
  unfold ChainOk
  rw [items, namesC]
  have h1 := Emits.seq (emits_asm_ (op := .newtuple) (a := reg) (by omega)) (h reg hr 0)
  refine ((h1.pre (r := reg)).congr fun st _ => ?_).mono ?_
  · rw [each_one]
    cases lickTrees ls <;> rfl
  · rintro f n0 n1 _ ⟨n2, ⟨rfl, q1⟩, q2⟩ regs
    rw [evalC]
    refine Does.bind (Does.prim (a := reg) fun loc m => step_newtuple q1) fun t r hr' => (q2 r t ?_).conseq fun v' r' ⟨s1, s2⟩ => post_chain rfl ⟨s1, fun i hi => ?_⟩
    · rw [hr', upd_same]
    · rw [s2 i hi, hr', upd_other (by omega)]

/-! ### `x(…) = e` -/

theorem block_snoc {r : Nat → V} : ∀ {i k : Nat}, block r i (k + 1) = block r i k ++ [r (i + k)]
  | i, 0 => rfl
  | i, k + 1 => by
    rw [block, block_snoc (i := i + 1), block, List.cons_append, show i + 1 + k = i + (k + 1) by omega]

theorem assign_args {rec : Rec} {x : Ident} {kk t1 t2 t3 rhs count reg st K} (hG : Good st K) (hx : isUpper x = false) :
    assign rec (leaf .expr (.tup [.node .msg (.str x) (.node kk t1 t2 t3) .nil])) rhs count reg st =
      (some ((st.locl (.str x)).1.wide (reg + 1))).bind fun s => (some (s.asm .getlocal ((reg + 1) % 256 : Nat) (st.locl (.str x)).2)).bind fun s =>
        (some (s.asm .callset reg ((reg + 1) % 256 : Nat))).bind fun s => (argAsmb rec (.node kk t1 t2 t3) ((reg + 1) % 256) true s).bind fun p =>
          (some (p.1.wide (p.2 + 1))).bind fun s => (rec rhs 0 ((p.2 + 1) % 256) s).bind fun s => some ((s.asm .call reg ((p.2 + 1) % 256 : Nat)).regs ((p.2 + 1) % 256)) := by
  show assignTo rec .msg (.str x) (.node kk t1 t2 t3) rhs 0 reg st = _
  unfold assignTo target
  rw [if_pos (Or.inl rfl)]
  dsimp only
  rw [hx, if_neg Bool.false_ne_true, if_pos rfl, var_good hG]
  rfl

theorem exN_setCall {n x as e K} (hx : isUpper x = false) (ho : okA as = true) (ha : ArgsOk W me dl n as (addName K x)) (h : ExN W me dl n e (namesL as (addName K x))) :
    ExN W me dl (n + 1) (.setCall x as e) K := by
  intro reg hr count
  unfold ExOk
  rw [namesE]
  have h0 : Emits (fun st => (some ((st.locl (.str x)).1.wide (reg + 1))).bind fun s => some (s.asm .getlocal ((reg + 1) % 256 : Nat) (st.locl (.str x)).2)) K (addName K x)
      (fun f n0 n1 => reg + 1 < 256 ∧ ∀ regs, Does W me f n0 regs (readVar x) n1 (fun v r => r = upd regs (reg + 1) v)) := by
    intro st hG
    have h1 := emits_wide (K := addName K x) (n := reg + 1) _ (good_locl (x := x) hG)
    have e1 : find (addName K x |>.map .str) (.str x) = some (st.locl (.str x)).2 := by
      have := find_locl (st := st) (x := x)
      rwa [(good_locl (x := x) hG).1] at this
    obtain ⟨st', a1, a2, a3, a4⟩ := Emits.seq (emits_wide (K := addName K x) (n := reg + 1))
      (emits_getlocal (W := W) (me := me) (reg := (reg + 1) % 256) (Nat.mod_lt _ (by omega)) e1) _ (good_locl (x := x) hG)
    refine ⟨st', a1, (grow_locl ..).trans a2, a3, fun f hH hf => ?_⟩
    obtain ⟨n2, ⟨rfl, hw⟩, q⟩ := a4 f (hH.right (Nat.le_refl _)) hf
    rw [mod_id hw] at q
    exact ⟨hw, q⟩
  have h1 := Emits.seq h0 (Emits.seq (emits_asm (op := .callset) (a := reg) (b := (reg + 1) % 256) (by omega) (by omega))
    (EmitsA.seq (ha ((reg + 1) % 256) (Nat.mod_lt _ (by omega)) ((reg + 1) % 256) (trees as).length) fun b hb =>
      Emits.seq (emits_wide (n := b + 1)) (Emits.seq (h ((b + 1) % 256) (Nat.mod_lt _ (by omega)) 0) (emits_call (reg := reg) (b := (b + 1) % 256) hr (Nat.mod_lt _ (by omega))))))
  refine ((h1.pre (r := reg)).congr fun st hG => ?_).mono ?_
  · rw [tree, asmb_leaf, node_assign]
    obtain ⟨k, a, b, c, e⟩ := argTree_node ho
    rw [e, assign_args (good_regs hG _) hx, ← e]
    simp only [Option.bind_some]
    congr 1
    rw [argAsmb_tree ho]
  · rintro f n0 n1 _ ⟨n2, ⟨hw, q0⟩, n3, ⟨rfl, q1⟩, b, n4, ⟨k, rfl, q2⟩, n5, ⟨rfl, hw2⟩, n6, q3, rfl, q4⟩ regs
    rw [mod_id hw] at q1 q2 hw2 q3 q4
    rw [mod_id hw2] at q3 q4
    rw [evalE]
    refine Does.bind (q0 regs) fun o r hr' => Does.bind (Does.ask (a := reg) (x := W.callset o) fun loc m => ?_) fun fv r1 hr1 => Does.bind (q2 r1) fun vs r2 ⟨p1, p2⟩ =>
      Does.bind (q3 r2) fun v r3 ⟨s1, s2⟩ => (Does.call (k := k + 1) q4 (by omega) ?_ ?_ ?_).conseq fun w r4 ⟨t1, t2⟩ => ⟨t1, fun i hi => ?_⟩
    · rw [step_callset q1, hr', upd_same]
    · rw [s2 reg (by omega), p2 reg (by omega), hr1, upd_same]
    · rw [s2 _ (by omega), p2 _ (by omega), hr1, upd_other (by omega), hr', upd_same]
    · rw [block_snoc, show reg + 2 + k = reg + 1 + k + 1 by omega, s1, ← p1]
      congr 1
      exact block_congr fun j h1 h2 => s2 j (by omega)
    · rw [t2 i hi, s2 i (by omega), p2 i (by omega), hr1, upd_other (by omega), hr', upd_other (by omega)]

end Potion.Send
