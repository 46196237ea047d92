import Verif.Proof.Send4
/-! Proof of C77: what the nodes emit. -/
namespace Potion.Send
open Potion Potion.Peg Potion.CompileAll Potion.Vm

variable {V S E : Type} {W : World V S E} {me : V} {dl : List (BitVec 8) → Bool}

theorem Emits.pre {G K K' C r} (h : Emits G K K' C) : Emits (fun st => G (st.regs r)) K K' C := by
  refine ((Emits.seq (emits_regs (n := r)) h).congr fun st _ => rfl).mono ?_
  rintro f n0 n1 _ ⟨_, rfl, h⟩; exact h
theorem Emits.post {G K K' C r} (h : Emits G K K' C) : Emits (fun st => (G st).bind fun st => some (st.regs r)) K K' C := by
  refine ((Emits.seq h (emits_regs (n := r))).congr fun st _ => rfl).mono ?_
  rintro f n0 n1 _ ⟨_, h, rfl⟩; exact h

theorem upd_post {r : Nat} {regs : Nat → V} {v : V} : Post r regs v (upd regs r v) := ⟨upd_same, fun i hi => upd_other (by omega)⟩

theorem emits_lit' {n count reg v K} (hr : reg < 256) (h : literal v = true) : Emits (asmb dl (n + 1) (leaf .value v) count reg) K K
    (fun f n0 n1 => ∀ regs, Does W me f n0 regs (pure (W.const v)) n1 (fun v r => r = upd regs reg v)) := by
  refine ((emits_load (V := V) (S := S) (E := E) (v := v) hr).pre (r := reg).congr fun st _ => ?_).mono ?_
  · unfold leaf; rw [asmb_leaf]
    cases v with
    | str s =>
      have h' : s.length ≠ 33 := by simpa [literal] using h
      show (if (CompileAll.isNil .nil : Bool) = true ∧ s.length ≠ 33 then _ else _) = _
      rw [if_pos ⟨rfl, h'⟩]
    | imm _ => rfl
    | dbl _ => rfl
    | _ => simp [literal] at h
  · rintro f n0 n1 _ ⟨rfl, hs⟩ regs
    exact Does.silent (hs W me regs) (Does.pure rfl)
theorem emits_lit {n count reg v K} (hr : reg < 256) (h : literal v = true) : Emits (asmb dl (n + 1) (leaf .value v) count reg) K K
    (fun f n0 n1 => ∀ regs, Does W me f n0 regs (pure (W.const v)) n1 (Post reg regs)) :=
  (emits_lit' hr h).mono fun _ _ _ _ q regs => (q regs).conseq fun _ _ e => e ▸ upd_post

theorem emits_me' {n count reg K} (hr : reg < 256) : Emits (asmb dl (n + 1) (leaf .msg (.str (Compile.bytesOf "self"))) count reg) K K
    (fun f n0 n1 => ∀ regs, Does W me f n0 regs (pure me) n1 (fun v r => r = upd regs reg v)) := by
  refine (((emits_asm_ (op := .self) (a := reg) (by omega)).pre (r := reg).post (r := reg)).congr fun st _ => ?_).mono ?_
  · unfold leaf; rw [asmb_leaf]
    simp only [node]
    unfold msgNode
    dsimp only
    repeat rw [if_neg (by decide)]
    rw [if_pos rfl]; rfl
  · rintro f n0 n1 _ ⟨rfl, h⟩ regs
    exact Does.silent (fun loc m => step_self h) (Does.pure rfl)
theorem emits_me {n count reg K} (hr : reg < 256) : Emits (asmb dl (n + 1) (leaf .msg (.str (Compile.bytesOf "self"))) count reg) K K
    (fun f n0 n1 => ∀ regs, Does W me f n0 regs (pure me) n1 (Post reg regs)) :=
  (emits_me' hr).mono fun _ _ _ _ q regs => (q regs).conseq fun _ _ e => e ▸ upd_post

theorem plain_message {rec : Rec} {m : Ident} {v blk count reg breg st K} (h : Good st K) (hm : count = 0 → m ∉ K) :
    plainMsg rec .msg (.str m) v blk count reg breg st = message rec .msg (.str m) v blk count reg breg st := by
  unfold plainMsg
  by_cases hc : count = 0
  · rw [if_pos ⟨hc, rfl⟩, look_good h]
    have : find (K.map .str) (.str m) = none := by
      cases hf : find (K.map .str) (.str m) with
      | none => rfl
      | some i => exact absurd (find_names.1 (by rw [hf]; rfl)) (hm hc)
    rw [this]; rfl
  · rw [if_neg (by simp [hc])]; rfl
theorem plain_query {rec : Rec} {m : Ident} {v blk count reg breg st} :
    plainMsg rec .query (.str m) v blk count reg breg st = message rec .query (.str m) v blk count reg breg st := by
  unfold plainMsg; rw [if_neg (by simp)]; rfl
theorem plain_var {rec : Rec} {m : Ident} {v blk reg breg st K i} (h : Good st K) (hi : find (K.map .str) (.str m) = some i) :
    plainMsg rec .msg (.str m) v blk 0 reg breg st = varCall rec v blk reg breg (st.asm .getlocal reg i) := by
  unfold plainMsg
  rw [if_pos ⟨rfl, rfl⟩, look_good h, hi]; rfl

/-- `c m`. -/
theorem emits_send {n count reg K} {m : Ident} (hr : reg < 256) (hp : plain m = true) (hm : count = 0 → m ∉ K) :
    Emits (asmb dl (n + 1) (leaf .msg (.str m)) count reg) K K (fun f n0 n1 => ∀ regs r, (count = 0 → r = me) → (count ≠ 0 → regs reg = r) →
      Does W me f n0 regs (prim (W.bind r (W.const (.str m))) >>= fun f => invoke W f r [W.const .nil]) n1 (Post reg regs)) := by
  have h := EmitsA.seq (Emits.seqA (emits_head (W := W) (me := me) (K := K) (count := count) (x := .str m) hr (p := W.bind) fun h => step_bind h)
    (emits_nil (W := W) (me := me) (r0 := (reg + 1) % 256))) (fun b hb => emits_call (K := K) (reg := reg) (b := b) hr hb)
  refine (h.pre (r := reg).congr fun st hG => ?_).mono ?_
  · unfold leaf; rw [asmb_leaf]
    simp only [node]
    rw [msgNode_plain hp, plain_message (good_regs hG _) hm, message_send]
  · rintro f n0 n1 _ ⟨b, n2, ⟨n3, ⟨hw, h1⟩, rfl, hb, rfl, h2⟩, rfl, h3⟩ regs r hr0 hr1
    rw [mod_id hw] at *
    refine Does.bind (h1 regs r hr0 hr1) fun fv r' ⟨q1, q2, q3⟩ => Does.silent (h2 r') ?_
    refine (Does.call (k := 1) h3 (by omega) ?_ ?_ ?_).conseq fun v r'' ⟨p1, p2⟩ => ⟨p1, fun i hi => ?_⟩
    · rw [upd_other (by omega), q1]
    · rw [upd_other (by omega), q2]
    · simp only [block]; rw [upd_same]
    · rw [p2 i hi, upd_other (by omega), q3 i hi]

/-- `c ?m`. -/
theorem emits_ask {n count reg K} {m : Ident} (hr : reg < 256) :
    Emits (asmb dl (n + 1) (leaf .query (.str m)) count reg) K K (fun f n0 n1 => ∀ regs r, (count = 0 → r = me) → (count ≠ 0 → regs reg = r) →
      Does W me f n0 regs (prim (W.bind r (W.const (.str m))) >>= fun f => pure (W.bool (W.truth f))) n1 (Post reg regs)) := by
  have h := EmitsA.seq (Emits.seqA (emits_head (W := W) (me := me) (K := K) (count := count) (x := .str m) hr (p := W.bind) fun h => step_bind h)
    (emits_nil (W := W) (me := me) (r0 := (reg + 1) % 256))) (fun b hb => (emits_asm (K := K) (op := .test) (a := reg) (b := b) (by omega) (by omega)).post (r := b))
  refine (h.pre (r := reg).congr fun st hG => ?_).mono ?_
  · unfold leaf; rw [asmb_leaf]
    show msgNode dl (asmb dl n) .query (.str m) .nil .nil count reg (st.regs reg) = _
    unfold msgNode
    rw [plain_query, message_ask]; rfl
  · rintro f n0 n1 _ ⟨b, n2, ⟨n3, ⟨hw, h1⟩, rfl, hb, rfl, h2⟩, rfl, h3⟩ regs r hr0 hr1
    rw [mod_id hw] at *
    refine Does.bind (h1 regs r hr0 hr1) fun fv r' ⟨q1, q2, q3⟩ => Does.silent (h2 r') (Does.silent (fun loc m => step_test h3) (Does.pure ⟨?_, fun i hi => ?_⟩))
    · rw [upd_same, upd_other (by omega), q1]
    · rw [upd_other (by omega), upd_other (by omega), q3 i hi]

/-- The arguments and the call, the function being in `reg` and self after it. -/
theorem emits_rest {n reg K} {as : Exs} (hr : reg < 256) (ha : ArgsOk W me dl n as K) :
    Emits (fun st => (argItems (asmb dl n) ((reg + 1) % 256) (trees as).length (trees as) ((reg + 1) % 256) st).bind fun p => some ((p.1.asm .call reg p.2).regs p.2))
      K (namesL as K) (fun f n0 n1 => reg + 1 < 256 → ∀ regs fv sv, regs reg = fv → regs (reg + 1) = sv →
        Does W me f n0 regs (evalA W me as K >>= fun vs => invoke W fv sv vs) n1 (Post reg regs)) := by
  refine (EmitsA.seq (ha ((reg + 1) % 256) (Nat.mod_lt _ (by omega)) _ _) (fun b hb => emits_call (reg := reg) (b := b) hr hb)).mono ?_
  rintro f n0 n1 _ ⟨b, n2, ⟨k, rfl, h1⟩, rfl, h2⟩ hw regs fv sv e1 e2
  rw [mod_id hw] at *
  refine Does.bind (h1 regs) fun vs r ⟨q1, q2⟩ => (Does.call h2 rfl ?_ ?_ q1).conseq fun v r' ⟨p1, p2⟩ => ⟨p1, fun i hi => ?_⟩
  · rw [q2 _ (by omega), e1]
  · rw [q2 _ (by omega), e2]
  · rw [p2 i hi, q2 i (by omega)]

/-- `c m(…)`. -/
theorem emits_sendArgs {n count reg K} {m : Ident} {as : Exs} (hr : reg < 256) (hp : plain m = true) (hm : count = 0 → m ∉ K) (ho : okA as = true) (ha : ArgsOk W me dl n as K) :
    Emits (asmb dl (n + 1) (.node .msg (.str m) (argTree as) .nil) count reg) K (namesL as K)
      (fun f n0 n1 => ∀ regs r, (count = 0 → r = me) → (count ≠ 0 → regs reg = r) →
        Does W me f n0 regs (prim (W.message r (W.const (.str m))) >>= fun f => evalA W me as K >>= fun vs => invoke W f r vs) n1 (Post reg regs)) := by
  have h := Emits.seq (emits_head (W := W) (me := me) (K := K) (count := count) (x := .str m) hr (p := W.message) fun h => step_msg h) (emits_rest hr ha)
  refine (h.pre (r := reg).congr fun st hG => ?_).mono ?_
  · rw [asmb_leaf]
    simp only [node]
    rw [msgNode_plain hp, plain_message (good_regs hG _) hm, message_args ho]; rfl
  · rintro f n0 n1 _ ⟨n2, ⟨hw, h1⟩, h2⟩ regs r hr0 hr1
    refine Does.bind (h1 regs r hr0 hr1) fun fv r' ⟨q1, q2, q3⟩ => (h2 hw r' fv r q1 q2).conseq fun v r'' ⟨p1, p2⟩ => ⟨p1, fun i hi => ?_⟩
    rw [p2 i hi, q3 i hi]

/-- `c ?m(…)`. -/
theorem emits_askArgs {n count reg K} {m : Ident} {as : Exs} (hr : reg < 256) (ho : okA as = true) (ha : ArgsOk W me dl n as K) :
    Emits (asmb dl (n + 1) (.node .query (.str m) (argTree as) .nil) count reg) K (namesL as K)
      (fun f n0 n1 => ∀ regs r, (count = 0 → r = me) → (count ≠ 0 → regs reg = r) →
        Does W me f n0 regs (prim (W.message r (W.const (.str m))) >>= fun f => if W.truth f = true then evalA W me as K >>= fun vs => invoke W f r vs else pure f)
          n1 (Post reg regs)) := by
  have h := emits_jump (op := .notjmp) (reg := reg) (by omega)
    (emits_head (W := W) (me := me) (K := K) (count := count) (x := .str m) hr (p := W.message) fun h => step_msg h) (emits_rest hr ha)
  refine (h.pre (r := reg).congr fun st hG => ?_).mono ?_
  · rw [asmb_leaf]
    show msgNode dl (asmb dl n) .query (.str m) (argTree as) .nil count reg (st.regs reg) = _
    unfold msgNode
    rw [plain_query, message_askArgs ho]
  · rintro f n0 n1 _ ⟨j, hj, ⟨hw, h1⟩, h2, h3⟩ regs r hr0 hr1
    refine Does.bind (h1 regs r hr0 hr1) fun fv r' ⟨q1, q2, q3⟩ => ?_
    by_cases ht : W.truth fv = true
    · rw [if_pos ht]
      refine Does.jump (n' := j + 1) (fun loc m => by rw [step_notjmp h2, q1, if_pos ht]) ?_
      exact (h3 hw r' fv r q1 q2).conseq fun v r'' ⟨p1, p2⟩ => ⟨p1, fun i hi => by rw [p2 i hi, q3 i hi]⟩
    · rw [if_neg ht]
      refine Does.jump (n' := n1) (fun loc m => ?_) (Does.pure ⟨q1, q3⟩)
      rw [step_notjmp h2, q1, if_neg ht]
      congr 2; omega

/-- Self after the function, the arguments, the call. -/
theorem emits_selfCall {n reg K} {as : Exs} (hr : reg < 256) (ho : okA as = true) (ha : ArgsOk W me dl n as K) :
    Emits (varCall (asmb dl n) (argTree as) .nil reg reg) K (namesL as K) (fun f n0 n1 => ∀ regs fv, regs reg = fv →
        Does W me f n0 regs (evalA W me as K >>= fun vs => invoke W fv me vs) n1 (Post reg regs)) := by
  have h := Emits.seq (Emits.seq (emits_wide (K := K) (n := reg + 1)) (emits_asm_ (op := .self) (a := (reg + 1) % 256) (by omega))) (emits_rest hr ha)
  refine (h.congr fun st hG => ?_).mono ?_
  · unfold varCall
    have e0 : (CompileAll.isNil (argTree as) && CompileAll.isNil .nil) = false := by
      obtain ⟨k, a, b, c, e⟩ := argTree_node ho
      rw [e]; rfl
    rw [e0, if_neg Bool.false_ne_true]
    rw [argAsmb_tree ho]
    rfl
  · rintro f n0 n1 _ ⟨n2, ⟨n3, ⟨rfl, hw⟩, rfl, h1⟩, h2⟩ regs fv e
    rw [mod_id hw] at h1
    refine Does.silent (fun loc m => step_self h1) ((h2 hw _ fv me ?_ upd_same).conseq fun v r ⟨p1, p2⟩ => ⟨p1, fun i hi => ?_⟩)
    · rw [upd_other (by omega), e]
    · rw [p2 i hi, upd_other (by omega)]

theorem emits_apply {n count reg K} {as : Exs} (hr : reg < 256) (hc : count ≠ 0) (ho : okA as = true) (ha : ArgsOk W me dl n as K) :
    Emits (asmb dl (n + 1) (.node .msg .nil (argTree as) .nil) count reg) K (namesL as K) (fun f n0 n1 => ∀ regs fv, regs reg = fv →
        Does W me f n0 regs (evalA W me as K >>= fun vs => invoke W fv me vs) n1 (Post reg regs)) := by
  refine (emits_selfCall hr ho ha).pre (r := reg).congr fun st _ => ?_
  rw [asmb_leaf]
  show msgNode dl (asmb dl n) .msg .nil (argTree as) .nil count reg (st.regs reg) = _
  show plainMsg (asmb dl n) .msg .nil (argTree as) .nil count reg reg (st.regs reg) = _
  unfold plainMsg
  rw [if_neg (by simp [hc]), if_pos (by rfl)]

/-- A variable. -/
theorem emits_var' {n reg K} {m : Ident} (hr : reg < 256) (hp : plain m = true) (hm : m ∈ K) :
    Emits (asmb dl (n + 1) (leaf .msg (.str m)) 0 reg) K K (fun f n0 n1 => ∀ regs, Does W me f n0 regs (readVar m) n1 (fun v r => r = upd regs reg v)) := by
  obtain ⟨i, hi⟩ := Option.isSome_iff_exists.1 (find_names.2 hm)
  refine (((emits_getlocal (W := W) (me := me) hr hi).pre (r := reg).post (r := reg)).congr fun st hG => ?_).mono ?_
  · unfold leaf; rw [asmb_leaf]
    simp only [node]
    rw [msgNode_plain hp, plain_var (good_regs hG _) hi]; rfl
  · intro f n0 n1 _ h regs
    exact h regs
theorem emits_var {n reg K} {m : Ident} (hr : reg < 256) (hp : plain m = true) (hm : m ∈ K) :
    Emits (asmb dl (n + 1) (leaf .msg (.str m)) 0 reg) K K (fun f n0 n1 => ∀ regs, Does W me f n0 regs (readVar m) n1 (Post reg regs)) :=
  (emits_var' hr hp hm).mono fun _ _ _ _ q regs => (q regs).conseq fun _ _ e => e ▸ upd_post
/-- A call of a variable. -/
theorem emits_varCall {n reg K} {m : Ident} {as : Exs} (hr : reg < 256) (hp : plain m = true) (hm : m ∈ K) (ho : okA as = true) (ha : ArgsOk W me dl n as K) :
    Emits (asmb dl (n + 1) (.node .msg (.str m) (argTree as) .nil) 0 reg) K (namesL as K)
      (fun f n0 n1 => ∀ regs, Does W me f n0 regs (readVar m >>= fun f => evalA W me as K >>= fun vs => invoke W f me vs) n1 (Post reg regs)) := by
  obtain ⟨i, hi⟩ := Option.isSome_iff_exists.1 (find_names.2 hm)
  have h := Emits.seq (emits_getlocal (W := W) (me := me) hr hi) (emits_selfCall hr ho ha)
  refine (h.pre (r := reg).congr fun st hG => ?_).mono ?_
  · rw [asmb_leaf]
    simp only [node]
    rw [msgNode_plain hp, plain_var (good_regs hG _) hi]; rfl
  · rintro f n0 n1 _ ⟨n2, h1, h2⟩ regs
    refine Does.bind (h1 regs) fun v r hr' => ?_
    subst hr'
    exact (h2 _ v upd_same).conseq fun v' r' ⟨p1, p2⟩ => ⟨p1, fun i hi => by rw [p2 i hi, upd_other (by omega)]⟩

/-! ### Fields -/

/-- compile.c:478-487, 851-857: the object in `reg`, the name of the field after it. -/
def phead (w : Bool) (count reg : Nat) (x : Tree) (st : CSt) : CSt :=
  let st0 := (st.const x).1
  let n := (st.const x).2
  let st1 := if count = 0 then (st0.path n).asm .self reg 0 else st0
  if w then (st1.wide (reg + 1)).asm .loadk ((reg + 1) % 256 : Nat) n else st1.asm .loadk (reg + 1) n

theorem emits_phead {K w count reg x} (hr : reg < 256) :
    Emits (fun st => some (phead w count reg x st)) K K (fun f n0 n1 => ∀ regs o, (count = 0 → o = me) → (count ≠ 0 → regs reg = o) →
      ∀ loc m, Path W me f ⟨n0, regs, loc, m⟩ ⟨n1, upd (upd regs reg o) (reg + 1) (W.const x), loc, m⟩) := by
  intro st hG
  have e : ∃ st1, st1 = (if count = 0 then ((st.const x).1.path (st.const x).2).asm .self reg 0 else (st.const x).1) := ⟨_, rfl⟩
  obtain ⟨st1, e⟩ := e
  have h1 : Grow (st.const x).1 st1 := by rw [e]; split; exact (grow_path ..).trans (grow_asm ..); exact .refl _
  have g1 : Good st1 K := by rw [e]; split; exact good_asm (good_path (good_const hG _) _) ..; exact good_const hG _
  have l1 : st1.len = if count = 0 then st.len + 1 else st.len := by rw [e]; split <;> rfl
  have e2 : ∃ st2, st2 = (if w then (st1.wide (reg + 1)).asm .loadk ((reg + 1) % 256 : Nat) (st.const x).2 else st1.asm .loadk (reg + 1) (st.const x).2) := ⟨_, rfl⟩
  obtain ⟨st2, e2⟩ := e2
  have h2 : Grow st1 st2 := by rw [e2]; split; exact (grow_wide ..).trans (grow_asm ..); exact grow_asm ..
  have g2 : Good st2 K := by rw [e2]; split; exact good_asm (good_wide g1 _) ..; exact good_asm g1 ..
  have l2 : st2.len = st1.len + 1 := by rw [e2]; split <;> rfl
  have ls : st.len ≤ st1.len := by rw [l1]; split <;> omega
  refine ⟨st2, by rw [e2, e]; rfl, ((grow_const st x).trans h1).trans h2, g2, fun f hH hf regs o ho0 ho1 loc m => ?_⟩
  obtain ⟨hn, hv⟩ := const_small hH hf (h1.trans h2)
  have a2 : At f st1.len .loadk (reg + 1) (st.const x).2 := by
    cases w with
    | false =>
      rw [if_neg (by simp)] at e2
      subst e2
      exact at_asm (st := st1) (x := reg + 1) hH ls (.refl _) (by omega) hn
    | true =>
      rw [if_pos rfl] at e2
      have hw : reg + 1 < 256 := wide_small (st := st1) hH hf (by rw [e2]; exact grow_asm ..)
      rw [mod_id hw] at e2
      subst e2
      exact at_asm (st := st1.wide (reg + 1)) (x := reg + 1) hH ls (.refl _) (by omega) hn
  rw [l2]
  by_cases hc : count = 0
  · rw [if_pos hc] at l1 e
    have a1 : At f st.len .self reg 0 := by
      subst e
      exact at_asm (st := (st.const x).1.path (st.const x).2) (y := 0) hH (Nat.le_refl _) h2 (by omega) (by omega)
    rw [l1] at a2 ⊢
    rw [ho0 hc]
    exact .step (step_self a1) (.step (step_loadk a2 hv) (.refl _))
  · rw [if_neg hc] at l1
    rw [l1] at a2 ⊢
    have : upd regs reg o = regs := by
      funext j; unfold upd; split
      · rename_i hj; rw [hj, ho1 hc]
      · rfl
    rw [this]
    exact .step (step_loadk a2 hv) (.refl _)

theorem emits_path {n count reg K q} {x : Ident} (hr : reg < 256) :
    Emits (asmb dl (n + 1) (leaf (if q then .pathq else .path) (.str x)) count reg) K K
      (fun f n0 n1 => ∀ regs o, (count = 0 → o = me) → (count ≠ 0 → regs reg = o) →
        Does W me f n0 regs (prim (W.get o (W.const (.str x))) >>= fun v => pure (if q = true then W.bool (W.truth v) else v)) n1 (Post reg regs)) := by
  have h0 := Emits.seq (emits_phead (W := W) (me := me) (K := K) (w := false) (count := count) (x := .str x) hr)
    (emits_asm' (op := .getpath) (x := reg) (y := (reg : Int) + 1) (a := reg) (b := reg + 1) rfl rfl (by omega) (by omega))
  have key : ∀ f n0 n1 regs o, (∃ n', (∀ regs o, (count = 0 → o = me) → (count ≠ 0 → regs reg = o) →
      ∀ loc m, Path W me f ⟨n0, regs, loc, m⟩ ⟨n', upd (upd regs reg o) (reg + 1) (W.const (.str x)), loc, m⟩) ∧ n1 = n' + 1 ∧ At f n' .getpath reg (reg + 1)) →
      (count = 0 → o = me) → (count ≠ 0 → regs reg = o) → Does W me f n0 regs (prim (W.get o (W.const (.str x)))) n1 (Post reg regs) := by
    rintro f n0 n1 regs o ⟨n', h1, rfl, h2⟩ e0 e1
    refine Does.path (h1 regs o e0 e1) ((Does.prim (a := reg) fun loc m => ?_).conseq fun v r hr' => ?_)
    · rw [step_getpath h2, upd_same, upd_other (by omega), upd_same]
    · rw [hr']; exact ⟨upd_same, fun i hi => by rw [upd_other (by omega), upd_other (by omega), upd_other (by omega)]⟩
  cases q with
  | false =>
    refine ((h0.pre (r := reg).post (r := reg + 1)).congr fun st hG => ?_).mono ?_
    · simp only [leaf]; rw [asmb_leaf]; rfl
    · intro f n0 n1 _ h regs o e0 e1
      exact Does.bind (key f n0 n1 regs o h e0 e1) fun v r hp => Does.pure hp
  | true =>
    have h1 := Emits.seq h0 (emits_asm (op := .test) (a := reg) (b := reg) (by omega) (by omega))
    refine ((h1.pre (r := reg).post (r := reg + 1)).congr fun st hG => ?_).mono ?_
    · simp only [leaf]; rw [asmb_leaf]; rfl
    · rintro f n0 n1 _ ⟨n2, h, rfl, ht⟩ regs o e0 e1
      refine Does.bind (key f n0 _ regs o h e0 e1) fun v r hp => Does.silent (fun loc m => step_test ht) (Does.pure ⟨?_, fun i hi => ?_⟩)
      · rw [upd_same, hp.1]; rfl
      · rw [upd_other (by omega), hp.2 i hi]

end Potion.Send
