import Verif.Proof.CompileSim
/-!
Closures, calls and returns of compiled functions.
-/
namespace Potion.Compile
open Potion Potion.Vm Potion.Spec

variable {F : Frame} {d : Nat}

/-- Move a local that is not captured to a new reference cell. -/
def Cfg.wrapLoc (F : Frame) (c : Cfg) (x : Name) (pos : Nat) : Cfg where
  m := fun P => if P = place F.sc x then some c.s.heap.length else c.m P
  env := c.env
  s := { c.s with
    heap := c.s.heap ++ [.ref (c.s.stack (la F (F.T.L.idxOf x)))]
    stack := fun j => if j = la F (F.T.L.idxOf x) then .obj c.s.heap.length else c.s.stack j
    pos := pos }

theorem heap_push {h : List Obj} {n : Nat} {o o' : Obj} (e : h[n]? = some o) : (h ++ [o'])[n]? = some o := by
  have := (List.getElem?_eq_some_iff.1 e).1
  rw [List.getElem?_append_left this]; exact e

theorem Good.wrapLoc (x : Ctx F d) {c : Cfg} (g : Good F c) {y : Name} (hy : y ∈ F.T.L) (hk : c.m (place F.sc y) = none)
    (hv : c.var F.A (place F.sc y) (c.s.stack (la F (F.T.L.idxOf y)))) (pos : Nat) :
    Good F (c.wrapLoc F y pos) ∧ Eff F c (c.wrapLoc F y pos) := by
  have mono : ∀ P k, c.m P = some k → (c.wrapLoc F y pos).m P = some k := by
    intro P k h
    have : P ≠ place F.sc y := by rintro rfl; rw [hk] at h; simp at h
    show (if _ then _ else _) = _
    rw [if_neg this]; exact h
  have clos : ∀ (n : Nat) g up, c.s.heap[n]? = some (Obj.clo g up) → (c.wrapLoc F y pos).s.heap[n]? = some (Obj.clo g up) :=
    fun n g up h => heap_push h
  have hst : ∀ k, k ≠ la F (F.T.L.idxOf y) → (c.wrapLoc F y pos).s.stack k = c.s.stack k := fun k hk => if_neg hk
  have hlt := idx_lt hy
  refine ⟨⟨g.f, g.cur, fun j z hz => ?_, fun j z hz => ?_, fun Q n hQ => ?_, fun P Q n hP hQ => ?_, fun i hi => ?_, g.old, g.grow, fun ho => ?_⟩,
    ⟨mono, clos, Nat.le_refl _, fun Q h1 h2 h3 => ⟨?_, rfl, rfl⟩, fun k hk => hst k (by unfold la; omega)⟩⟩
  · have hj := List.getElem?_eq_some_iff.1 hz
    by_cases e : z = y
    · subst e
      have : j = F.T.L.idxOf z := by rw [← hj.2]; exact (x.nd.idxOf_getElem j hj.1).symm
      subst this
      exact .inr ⟨c.s.heap.length, if_pos rfl, if_pos rfl⟩
    · have hne : j ≠ F.T.L.idxOf y := by
        rintro rfl; rw [idx_get hy] at hz; exact e (by simpa using hz.symm)
      have hp : place F.sc z ≠ place F.sc y := fun h => e (x.inj z (List.mem_of_getElem? hz) y hy h)
      rw [hst _ (by unfold la; omega)]
      rcases g.loc j z hz with ⟨h1, h2⟩ | ⟨k, h1, h2⟩
      · refine .inl ⟨?_, h2.mono rfl rfl clos mono⟩
        show (if _ then _ else _) = _
        rw [if_neg hp]; exact h1
      · exact .inr ⟨k, mono _ _ h1, h2⟩
  · have hj := (List.getElem?_eq_some_iff.1 hz).1
    obtain ⟨k, h1, h2⟩ := g.up j z hz
    exact ⟨k, mono _ _ h1, by rw [hst _ (by unfold la; omega)]; exact h2⟩
  · by_cases e : Q = place F.sc y
    · subst e
      have : n = c.s.heap.length := by
        have : (if place F.sc y = place F.sc y then some c.s.heap.length else c.m (place F.sc y)) = some n := hQ
        rw [if_pos rfl] at this; simpa using this.symm
      subst this
      exact ⟨_, by simp [Cfg.wrapLoc], hv.mono rfl rfl clos mono⟩
    · have : c.m Q = some n := by
        have : (if Q = place F.sc y then some c.s.heap.length else c.m Q) = some n := hQ
        rwa [if_neg e] at this
      obtain ⟨r, h1, h2⟩ := g.refs Q n this
      exact ⟨r, heap_push h1, h2.mono rfl rfl clos mono⟩
  · have cs : ∀ P, (c.wrapLoc F y pos).m P = some n → (P = place F.sc y ∧ n = c.s.heap.length) ∨ (P ≠ place F.sc y ∧ c.m P = some n ∧ n < c.s.heap.length) := by
      intro P hP
      by_cases e : P = place F.sc y
      · have : (if P = place F.sc y then some c.s.heap.length else c.m P) = some n := hP
        rw [if_pos e] at this
        exact .inl ⟨e, by simpa using this.symm⟩
      · have : (if P = place F.sc y then some c.s.heap.length else c.m P) = some n := hP
        rw [if_neg e] at this
        obtain ⟨r, h1, _⟩ := g.refs P n this
        exact .inr ⟨e, this, (List.getElem?_eq_some_iff.1 h1).1⟩
    rcases cs P hP with ⟨a, b⟩ | ⟨a, b, b'⟩ <;> rcases cs Q hQ with ⟨a', e⟩ | ⟨a', e, e'⟩
    · rw [a, a']
    · omega
    · omega
    · exact g.inj _ _ _ b e
  · show (if _ then _ else _) = _
    rw [if_neg]
    · exact g.fresh i hi
    · intro e
      have := g.old y hy i e.symm
      have : c.env.pars.length ≤ i := hi
      omega
  · rw [hst _ (by unfold la ra; omega)]; exact g.self ho
  · show (if _ then _ else _) = _
    rw [if_neg (h2 y hy)]; exact h1

theorem cap_up (s : State) (n acc a b v) (hc : s.f.code (s.pos + 1) = ⟨.getupval, a, b⟩)
    (hv : State.rd { s with pos := s.pos + 1 } s.cur b = some v) :
    s.capture (n+1) acc = State.capture { s with pos := s.pos + 1 } n (acc ++ [v]) := by
  conv => lhs; unfold State.capture
  simp only [hc, hv]
theorem cap_ref (s : State) (n acc a b v k) (hc : s.f.code (s.pos + 1) = ⟨.getlocal, a, b⟩)
    (hv : State.rd { s with pos := s.pos + 1 } (State.lbase { s with pos := s.pos + 1 }) b = some v)
    (hr : State.isRef { s with pos := s.pos + 1 } v = some k) :
    s.capture (n+1) acc = State.capture { s with pos := s.pos + 1 } n (acc ++ [v]) := by
  conv => lhs; unfold State.capture
  simp only [hc, hv, hr]
theorem cap_loc (s : State) (n acc a b v s') (hc : s.f.code (s.pos + 1) = ⟨.getlocal, a, b⟩)
    (hv : State.rd { s with pos := s.pos + 1 } (State.lbase { s with pos := s.pos + 1 }) b = some v)
    (hr : State.isRef { s with pos := s.pos + 1 } v = none)
    (hw : State.wr { s with pos := s.pos + 1, heap := s.heap ++ [.ref v] } (State.lbase { s with pos := s.pos + 1 }) b (.obj s.heap.length) = some s') :
    s.capture (n+1) acc = State.capture s' n (acc ++ [.obj s.heap.length]) := by
  conv => lhs; unfold State.capture
  simp only [hc, hv, hr, hw]

/-- Collecting the upvalues of a new closure. -/
theorem capture_ok (x : Ctx F d) : ∀ (xs : List Name) (acc : List Val) (c : Cfg) (r : Nat), Good F c →
    (∀ (j : Nat) y, xs[j]? = some y → ∃ up k, VarAt F.T y up k ∧ F.T.f.code (c.s.pos + 1 + j) = ⟨getOp up, r, (k : Nat)⟩) →
    ∃ c' ups, c.s.capture xs.length acc = some (c'.s, acc ++ ups) ∧ Good F c' ∧ Eff F c c' ∧ c'.env = c.env ∧
      c'.s.pos = c.s.pos + xs.length ∧ (∀ j, c'.s.stack (ra F j) = c.s.stack (ra F j)) ∧
      List.Forall₂ (fun x r => ∃ k, c'.m (place F.sc x) = some k ∧ r = .obj k) xs ups
  | [], acc, c, r, g, _ => ⟨c, [], by simp [State.capture], g, Eff.refl _ _, rfl, rfl, fun _ => rfl, .nil⟩
  | y :: xs, acc, c, r, g, hc => by
    obtain ⟨up, k, hv, h0⟩ := hc 0 y rfl
    have h0 : F.T.f.code (c.s.pos + 1) = ⟨getOp up, r, (k : Nat)⟩ := h0
    have g1 := g.go (c.s.pos + 1)
    have next : ∀ (c1 : Cfg) (n : Nat), c1.s.pos = c.s.pos + 1 → Good F c1 → Eff F c c1 → c1.env = c.env →
        (∀ j, c1.s.stack (ra F j) = c.s.stack (ra F j)) → c1.m (place F.sc y) = some n →
        c.s.capture (y :: xs).length acc = c1.s.capture xs.length (acc ++ [.obj n]) →
        ∃ c' ups, c.s.capture (y :: xs).length acc = some (c'.s, acc ++ ups) ∧ Good F c' ∧ Eff F c c' ∧ c'.env = c.env ∧
          c'.s.pos = c.s.pos + (y :: xs).length ∧ (∀ j, c'.s.stack (ra F j) = c.s.stack (ra F j)) ∧
          List.Forall₂ (fun x r => ∃ k, c'.m (place F.sc x) = some k ∧ r = .obj k) (y :: xs) ups := by
      intro c1 n p1 gc ec ev st hm e
      obtain ⟨c', ups, e1, e2, e3, e4, e5, e6, e7⟩ := capture_ok x xs (acc ++ [.obj n]) c1 r gc (by
        intro j z hz
        have := hc (j+1) z (by simpa using hz)
        rw [p1, show c.s.pos + 1 + 1 + j = c.s.pos + 1 + (j + 1) by omega]
        exact this)
      refine ⟨c', .obj n :: ups, ?_, e2, ec.trans e3, e4.trans ev, ?_, fun j => (e6 j).trans (st j), .cons ⟨n, e3.mono _ _ hm, rfl⟩ e7⟩
      · rw [e, e1]; simp
      · rw [e5, p1]; simp; omega
    have hf : ({ c.s with pos := c.s.pos + 1 } : State).f.code (c.s.pos + 1) = ⟨getOp up, r, (k : Nat)⟩ := by
      show c.s.f.code _ = _
      rw [g.f]; exact h0
    unfold VarAt at hv
    cases up
    · simp only [Bool.false_eq_true, if_false] at hv
      obtain ⟨hy, rfl⟩ := hv
      have hl := rd_loc x g1 (idx_lt hy)
      have hlt := idx_lt hy
      have rm := x.room
      rcases g.loc _ y (idx_get hy) with ⟨h1, h2⟩ | ⟨n, h1, h2⟩
      · have ⟨gw, ew⟩ := g.wrapLoc x hy h1 h2 (c.s.pos + 1)
        refine next (c.wrapLoc F y (c.s.pos + 1)) c.s.heap.length rfl gw ew rfl (fun j => ?_) (if_pos rfl) ?_
        · exact if_neg (by unfold ra la; omega)
        · have hr : (c.go (c.s.pos + 1)).s.isRef ((c.go (c.s.pos + 1)).s.stack (la F (F.T.L.idxOf y))) = none := h2.isRef
          have ws := wr_at { (c.go (c.s.pos + 1)).s with heap := c.s.heap ++ [.ref (c.s.stack (la F (F.T.L.idxOf y)))] }
            (c.go (c.s.pos + 1)).s.lbase (la F (F.T.L.idxOf y)) (F.T.L.idxOf y : Nat) (.obj c.s.heap.length)
            (by rw [g1.lbase x]; unfold la; omega) (by unfold la; omega)
          exact cap_loc c.s _ _ _ _ _ _ hf hl hr ws
      · obtain ⟨v', e1, e2⟩ := g.refs _ _ h1
        have ⟨q1, q2⟩ := ref_deref e1
        refine next (c.go (c.s.pos + 1)) n rfl g1 (Eff.go _ _ _) rfl (fun _ => rfl) h1 ?_
        have hr : (c.go (c.s.pos + 1)).s.isRef ((c.go (c.s.pos + 1)).s.stack (la F (F.T.L.idxOf y))) = some n := by
          show c.s.isRef (c.s.stack _) = _
          rw [h2]; exact q1
        have := cap_ref c.s xs.length acc _ _ _ _ hf hl hr
        rw [show (c.go (c.s.pos + 1)).s.stack (la F (F.T.L.idxOf y)) = .obj n from h2] at this
        exact this
    · simp only [if_true] at hv
      obtain ⟨hy, rfl⟩ := hv
      have hl := rd_up x g1 (idx_lt hy)
      obtain ⟨n, h1, h2⟩ := g.up _ y (idx_get hy)
      refine next (c.go (c.s.pos + 1)) n rfl g1 (Eff.go _ _ _) rfl (fun _ => rfl) h1 ?_
      have := cap_up c.s xs.length acc _ _ _ hf hl
      rw [show (c.go (c.s.pos + 1)).s.stack (F.cur + F.T.U.idxOf y) = .obj n from h2] at this
      exact this

/-- A new heap object. -/
def Cfg.push (c : Cfg) (o : Obj) : Cfg := { c with s := { c.s with heap := c.s.heap ++ [o] } }

theorem Good.push {c : Cfg} (g : Good F c) (o : Obj) : Good F (c.push o) ∧ Eff F c (c.push o) := by
  have clos : ∀ (n : Nat) g up, c.s.heap[n]? = some (Obj.clo g up) → (c.push o).s.heap[n]? = some (Obj.clo g up) :=
    fun n g up h => heap_push h
  refine ⟨⟨g.f, g.cur, fun j z hz => ?_, g.up, fun Q n hQ => ?_, g.inj, g.fresh, g.old, g.grow, g.self⟩,
    ⟨fun _ _ h => h, clos, Nat.le_refl _, fun Q h1 h2 h3 => ⟨h1, rfl, rfl⟩, fun k hk => rfl⟩⟩
  · rcases g.loc j z hz with ⟨h1, h2⟩ | h
    · exact .inl ⟨h1, h2.mono rfl rfl clos fun _ _ h => h⟩
    · exact .inr h
  · obtain ⟨r, h1, h2⟩ := g.refs Q n hQ
    exact ⟨r, heap_push h1, h2.mono rfl rfl clos fun _ _ h => h⟩

theorem raw_proto (s : State) (a) (i : Nat) (g s' up) (h : s.pos < s.f.len ∧ s.f.code s.pos = ⟨.proto, a, i⟩)
    (hg : s.f.protos[i]? = some g) (hc : s.capture g.upvalsize [] = some (s', up)) :
    s.step = State.setReg { s' with heap := s'.heap ++ [.clo g up] } a (.obj s'.heap.length) := by
  unfold State.step; rw [if_pos h.1]; simp only [h.2, Int.natCast_nonneg, if_true, Int.toNat_natCast, hg, hc]

/-- Making a closure. -/
theorem step_proto (x : Ctx F d) {c : Cfg} (g : Good F c) (hp : c.s.pos < F.T.f.len) {r i : Nat} {T : Tgt} {ps : List Name} {b : Prog}
    (hr : r < 300) (h : F.T.f.code c.s.pos = ⟨.proto, r, i⟩) (hg : F.T.f.protos[i]? = some T.f) (hu : T.f.upvalsize = T.U.length)
    (hc : ∀ (j : Nat) y, T.U[j]? = some y → ∃ up k, VarAt F.T y up k ∧ F.T.f.code (c.s.pos + 1 + j) = ⟨getOp up, r, (k : Nat)⟩)
    (ok : FnOk F.A T ps b) :
    ∃ c', To F c c' ∧ c'.env = c.env ∧ c'.s.pos = c.s.pos + 1 + T.U.length ∧ (∀ j, j ≠ r → c'.s.stack (ra F j) = c.s.stack (ra F j)) ∧
      c'.has F.A (.fn ps b F.sc) (c'.s.stack (ra F r)) := by
  obtain ⟨c1, ups, e1, g1, f1, v1, p1, s1, u1⟩ := capture_ok x T.U [] c r g hc
  have ⟨g2, f2⟩ := g1.push (.clo T.f ups)
  rw [← hu] at e1
  have st := (raw_proto c.s _ i T.f c1.s ups (raw g.f hp h) (by rw [g.f]; exact hg) e1).trans (wr_reg x g2 hr (.obj c1.s.heap.length))
  refine ⟨_, ⟨Star.one ⟨st, mild_easy g.f h rfl⟩, (f1.trans f2).trans (Eff.reg _ _ _ _ _), g2.reg _ _ _⟩, v1, ?_, fun j hj => ?_, ?_⟩
  · show c1.s.pos + 1 = _
    rw [p1]; omega
  · rw [reg_ne _ _ _ hj]; exact s1 j
  · rw [reg_same]
    refine ⟨c1.s.heap.length, T, ups, rfl, ?_, ok, u1⟩
    simp [Cfg.reg, Cfg.push, wput]

/-- Reading arguments. -/
theorem reads_ok (s : State) (b : Nat) : ∀ (n k : Nat), b + k + n ≤ 4096 →
    s.reads b n (k : Int) = some ((List.range' k n).map fun j => s.stack (b + j))
  | 0, k, _ => rfl
  | n+1, k, h => by
    unfold State.reads
    rw [rd_at s b (b + k) k (by omega) (by omega), show ((k : Int) + 1) = ((k + 1 : Nat) : Int) by omega, reads_ok s b n (k+1) (by omega)]
    simp [List.range'_succ]

theorem putAll_ok (b : Nat) : ∀ (vs : List Val) (i : Nat) (s : State), b + i + vs.length ≤ 4096 →
    ∃ S, s.putAll b i vs = some { s with stack := S } ∧ (∀ (j : Nat) v, vs[j]? = some v → S (b + i + j) = v) ∧
      ∀ k, (k < b + i ∨ b + i + vs.length ≤ k) → S k = s.stack k
  | [], i, s, _ => ⟨s.stack, rfl, by simp, fun _ _ => rfl⟩
  | v :: vs, i, s, h => by
    simp only [List.length_cons] at h
    obtain ⟨S, h1, h2, h3⟩ := putAll_ok b vs (i+1) { s with stack := fun j => if j = b + i then v else s.stack j } (by omega)
    refine ⟨S, ?_, fun j v' hj => ?_, fun k hk => ?_⟩
    · unfold State.putAll
      rw [wr_at s b (b + i) i v (by omega) (by omega)]
      exact h1
    · cases j with
      | zero =>
        obtain rfl := by simpa using hj
        rw [h3 _ (by omega)]; simp
      | succ j => rw [show b + i + (j + 1) = b + (i + 1) + j by omega]; exact h2 j v' (by simpa using hj)
    · simp only [List.length_cons] at hk
      rw [h3 k (by omega)]
      exact if_neg (by omega)

theorem putParams_ok (b m : Nat) : ∀ (vs : List (Nat × Val)) (s : State), (vs.map (·.1)).Nodup → (∀ i ∈ vs.map (·.1), i < m) → b + m ≤ 4096 →
    ∃ S, s.putParams b vs = some { s with stack := S } ∧ (∀ (i : Nat) v, (i, v) ∈ vs → S (b + i) = v) ∧
      ∀ k, (∀ i ∈ vs.map (·.1), k ≠ b + i) → S k = s.stack k
  | [], s, _, _, _ => ⟨s.stack, rfl, by simp, fun _ _ => rfl⟩
  | (i, v) :: vs, s, hn, hm, hb => by
    simp only [List.map_cons, List.nodup_cons] at hn
    have hi := hm i (by simp)
    obtain ⟨S, h1, h2, h3⟩ := putParams_ok b m vs { s with stack := fun j => if j = b + i then v else s.stack j } hn.2
      (fun j hj => hm j (by simp only [List.map_cons, List.mem_cons]; exact .inr hj)) hb
    refine ⟨S, ?_, fun j v' hj => ?_, fun k hk => ?_⟩
    · unfold State.putParams
      rw [wr_at s b (b + i) i v (by omega) (by omega)]
      exact h1
    · rcases List.mem_cons.1 hj with e | e
      · obtain ⟨rfl, rfl⟩ := by simpa using e
        rw [h3 _ (fun k hk e => hn.1 (by obtain rfl : j = k := by omega
                                         exact hk))]
        simp
      · exact h2 j v' e
    · rw [h3 k (fun j hj => hk j (by simp only [List.map_cons, List.mem_cons]; exact .inr hj))]
      exact if_neg (hk i (by simp))

/-- A new frame. -/
theorem enter_ok (s : State) (self : Val) (up args : List Val) (hn : s.f.params.Nodup) (hl : ∀ i ∈ s.f.params, i < s.f.localsize)
    (hu : up.length = s.f.upvalsize) (ha : args.length = s.f.params.length) (hb : s.cur + s.f.upvalsize + s.f.localsize + 2 ≤ 4096) :
    ∃ S, s.enter self up args = some { s with stack := S } ∧ (∀ k, k < s.cur → S k = s.stack k) ∧
      (∀ (j : Nat) v, up[j]? = some v → S (s.cur + j) = v) ∧
      (∀ (j i : Nat) v, s.f.params[j]? = some i → args[j]? = some v → S (s.cur + s.f.upvalsize + i) = v) ∧
      S (s.cur + s.f.upvalsize + s.f.localsize) = self := by
  have w1 := wr_at s s.rbase (s.cur + s.f.upvalsize + s.f.localsize) (-1) self (by unfold State.rbase; omega) (by omega)
  let s1 : State := { s with stack := fun j => if j = s.cur + s.f.upvalsize + s.f.localsize then self else s.stack j }
  have w2 := wr_at s1 s1.rbase (s.cur + s.f.upvalsize + s.f.localsize + 1) 0 self (by show ((s.rbase : Nat) : Int) + 0 = _; unfold State.rbase; omega) (by omega)
  let s2 : State := { s1 with stack := fun j => if j = s.cur + s.f.upvalsize + s.f.localsize + 1 then self else s1.stack j }
  obtain ⟨S3, a1, a2, a3⟩ := putAll_ok s.cur up 0 s2 (by omega)
  have hz : (s.f.params.zip args).map (·.1) = s.f.params := List.map_fst_zip (by omega)
  obtain ⟨S4, b1, b2, b3⟩ := putParams_ok (s.cur + s.f.upvalsize) s.f.localsize (s.f.params.zip args) { s2 with stack := S3 } (by rw [hz]; exact hn)
    (by rw [hz]; exact hl) (by omega)
  have hlow : ∀ k, (∀ i ∈ s.f.params, k ≠ s.cur + s.f.upvalsize + i) → S4 k = S3 k := fun k hk => b3 k (by rw [hz]; exact hk)
  refine ⟨S4, ?_, fun k hk => ?_, fun j v hj => ?_, fun j i v hj hv => ?_, ?_⟩
  · unfold State.enter
    rw [if_neg (by show ¬ s.cur ≥ 4096; omega), w1]
    show (match s1.wr s1.rbase 0 self with | none => none | some s => _) = _
    rw [w2]
    show (match s2.putAll s.cur 0 up with | none => none | some s => _) = _
    rw [a1]
    exact b1
  · rw [hlow k (fun i _ => by omega), a3 k (by omega)]
    show (if _ then _ else if _ then _ else _) = _
    rw [if_neg (by omega), if_neg (by omega)]
  · have := (List.getElem?_eq_some_iff.1 hj).1
    rw [hlow _ (fun i _ => by omega)]
    have := a2 j v hj
    simpa using this
  · refine b2 i v ?_
    have : (s.f.params.zip args)[j]? = some (i, v) := by rw [List.getElem?_zip_eq_some]; exact ⟨hj, hv⟩
    exact List.mem_of_getElem? this
  · rw [hlow _ (fun i hi => by have := hl i hi; omega), a3 _ (by omega)]
    show (if _ then _ else if _ then _ else _) = _
    rw [if_neg (by omega), if_pos rfl]

theorem place_in {sc : List (Ident × Nat)} : ∀ {ps : List Ident} {n j : Nat} {x : Ident}, ps.Nodup → ps[j]? = some x →
    place (scopeOf ps n ++ sc) x = .par (n + j)
  | [], n, j, x, _, h => by simp at h
  | p :: ps, n, j, x, hn, h => by
    simp only [List.nodup_cons] at hn
    cases j with
    | zero =>
      obtain rfl := by simpa using h
      simp [scopeOf, place]
    | succ j =>
      have hx : x ∈ ps := List.mem_of_getElem? (by simpa using h)
      have : x ≠ p := by rintro rfl; exact hn.1 hx
      simp only [scopeOf, List.cons_append, place]
      rw [if_neg this, place_in hn.2 (by simpa using h)]
      congr 1; omega

theorem place_out {sc : List (Ident × Nat)} : ∀ {ps : List Ident} {n : Nat} {x : Ident}, x ∉ ps → place (scopeOf ps n ++ sc) x = place sc x
  | [], n, x, _ => rfl
  | p :: ps, n, x, h => by
    simp only [List.mem_cons, not_or] at h
    simp only [scopeOf, List.cons_append, place]
    rw [if_neg h.1, place_out h.2]

theorem put_all : ∀ (ps l : List Name), (l ++ ps).Nodup → ps.foldl (fun l p => (put l p).1) l = l ++ ps
  | [], l, _ => by simp
  | p :: ps, l, h => by
    have hp : p ∉ l := by
      intro hp
      rw [List.nodup_append] at h
      exact h.2.2 p hp p (by simp) rfl
    simp only [List.foldl_cons]
    rw [put_of_not hp, put_all ps (l ++ [p]) (by simpa using h)]
    simp

/-- The locals of a compiled function are its parameters. -/
theorem FnOk.locals {A : Lim} {g : Tgt} {ps : List Name} {b : Prog} (ok : FnOk A g ps b) :
    g.L = ps ∧ ps.Nodup ∧ g.f.params.length = ps.length ∧ (∀ j, j < ps.length → g.f.params[j]? = some j) ∧ g.f.localsize = ps.length ∧
      g.f.upvalsize = g.U.length := by
  obtain ⟨e, h, _⟩ := ok.code
  have fl := (ok.nest g.f (.self _)).flat
  have hn : ps.Nodup := by
    have := fl.2
    rw [h.params] at this
    exact List.Pairwise.of_map _ (fun a b h e => h (by rw [e])) this
  have hf := put_all ps [] (by simpa using hn)
  simp only [List.nil_append] at hf
  have hp := h.params
  rw [hf] at hp
  have hpre := h.pre
  rw [hf] at hpre
  have hl : g.f.params.length = ps.length := by rw [hp]; simp
  have hL : g.L.length = ps.length := by rw [← h.loc, fl.1, hl]
  refine ⟨(hpre.eq_of_length hL.symm).symm, hn, hl, fun j hj => ?_, by rw [fl.1, hl], h.up⟩
  rw [hp, List.getElem?_map, List.getElem?_eq_getElem hj]
  simp only [Option.map_some]
  rw [hn.idxOf_getElem]

theorem left_nil (g : Proto) : g.left g.params.length = [] := by simp [Proto.left]

theorem raw_call (s : State) (a b : Int) (n : Nat) (g up self args s1) (h : s.pos < s.f.len ∧ s.f.code s.pos = ⟨.call, a, b⟩)
    (hr : s.rd s.rbase a = some (.obj n)) (hn : s.heap[n]? = some (.clo g up))
    (hs : ¬ s.rbase + s.fsize s.f + s.f.upvalsize + s.f.localsize + 8 ≥ STACK_MAX) (hm : g.minargs = g.params.length)
    (hb : b - a - 1 = (g.params.length : Int)) (h1 : s.rd s.rbase (a + 1) = some self)
    (h2 : s.reads s.rbase g.params.length (a + 2) = some args)
    (h3 : s.rbase + s.fsize s.f + 2 ≤ 4096)
    (h4 : State.enter { s with
      f := g
      pos := 0
      cur := s.rbase + s.fsize s.f + 2
      stack := fun j => if j = s.rbase + s.fsize s.f + 1 then .imm (BitVec.ofNat 64 s.pos)
        else if j = s.rbase + s.fsize s.f then .fn s.f else s.stack j } self up args = some s1) :
    s.step = .run s1 := by
  have hsig : (g.params.isEmpty || sigCheck g (g.params.length : Int)) = true := by
    simp [sigCheck, hm]
  have w1 := wr_at s (s.rbase + s.fsize s.f + 2) (s.rbase + s.fsize s.f) (-2) (.fn s.f) (by omega) (by omega)
  have w2 := wr_at { s with stack := fun j => if j = s.rbase + s.fsize s.f then .fn s.f else s.stack j } (s.rbase + s.fsize s.f + 2) (s.rbase + s.fsize s.f + 1) (-1)
    (.imm (BitVec.ofNat 64 s.pos)) (by omega) (by omega)
  unfold State.step; rw [if_pos h.1]; simp only [h.2]
  unfold State.call
  simp only [hr, hn, hb]
  rw [if_neg hs, if_neg (by omega : ¬ ((g.params.length : Int) < 0)), hsig]
  simp only [Bool.not_true, Bool.false_eq_true, if_false, h1, Int.toNat_natCast, left_nil, State.fill, h2, w1, w2, h4]

/-- Calling a function. -/
theorem step_call (x : Ctx F (d+1)) {c : Cfg} (g : Good F c) (hp : c.s.pos < F.T.f.len) {r n : Nat} {ps : List Name} {b : Prog}
    {sc : List (Ident × Nat)} {vs : List V}
    (hr : r < F.T.f.stack) (hn : r + 1 + n ≤ 255) (h : F.T.f.code c.s.pos = ⟨.call, r, (r + 1 + n : Nat)⟩)
    (hf : c.has F.A (.fn ps b sc) (c.s.stack (ra F r))) (hs : F.A.own = true → vtest (c.s.stack (ra F (r+1))) = true)
    (ha : ∀ (j : Nat) v, vs[j]? = some v → c.has F.A v (c.s.stack (ra F (r+2+j)))) (hv : vs.length = n) (hl : vs.length = ps.length) :
    ∃ (T : Tgt) (c1 : Cfg), FnOk F.A T ps b ∧
      Ctx ⟨F.A, T, scopeOf ps c.env.pars.length ++ sc, ra F F.T.f.stack + 2⟩ d ∧
      Good ⟨F.A, T, scopeOf ps c.env.pars.length ++ sc, ra F F.T.f.stack + 2⟩ c1 ∧
      One F.A.ok c.s c1.s ∧ c1.m = c.m ∧ c1.env = { c.env with pars := c.env.pars ++ vs } ∧ c1.s.pos = 0 ∧ c1.s.heap = c.s.heap ∧
      (∀ k, k < ra F F.T.f.stack → c1.s.stack k = c.s.stack k) ∧ c1.s.stack (ra F F.T.f.stack) = .fn F.T.f ∧
      c1.s.stack (ra F F.T.f.stack + 1) = .imm (BitVec.ofNat 64 c.s.pos) := by
  obtain ⟨nn, T, up, e1, e2, ok, e3⟩ := hf
  obtain ⟨hL, hnd, hpl, hpar, hls, hus⟩ := ok.locals
  have sz := (ok.nest T.f (.self _)).size
  have hup : up.length = T.f.upvalsize := by rw [hus]; exact e3.length_eq.symm
  have rm := x.room
  have z1 := x.up
  have z2 := x.loc
  have z3 := x.size
  have z4 := x.deep
  have z5 : (d + 1 + 1) * F.A.K = (d + 1) * F.A.K + F.A.K := by rw [Nat.add_mul, Nat.one_mul]
  have z6 : F.A.K ≤ (d + 1) * F.A.K := Nat.le_mul_of_pos_left _ (by omega)
  have rb := g.rbase x
  have hfs : c.s.fsize c.s.f = F.T.f.stack := by unfold State.fsize; rw [g.grow, g.f]; simp
  have hcur : ra F F.T.f.stack = ra F 0 + F.T.f.stack := by unfold ra; omega
  have hra : ra F 0 = F.cur + F.T.U.length + F.T.L.length + 1 := rfl
  have hrb : c.s.rbase + c.s.fsize c.s.f = ra F F.T.f.stack := by rw [rb, hfs, hcur]
  let args : List Val := (List.range' (r+2) T.f.params.length).map fun j => c.s.stack (c.s.rbase + j)
  have hargs : c.s.reads c.s.rbase T.f.params.length ((r : Int) + 2) = some args := by
    have := reads_ok c.s c.s.rbase T.f.params.length (r+2) (by rw [rb]; omega)
    exact this
  have hal : args.length = T.f.params.length := by simp [args]
  let S0 : Nat → Val := fun j => if j = ra F F.T.f.stack + 1 then .imm (BitVec.ofNat 64 c.s.pos)
    else if j = ra F F.T.f.stack then .fn F.T.f else c.s.stack j
  have hpi : ∀ i ∈ T.f.params, i < T.f.localsize := by
    intro i hi
    obtain ⟨j, hj⟩ := List.mem_iff_getElem?.1 hi
    have hj' := (List.getElem?_eq_some_iff.1 hj).1
    rw [hpar j (by omega)] at hj
    obtain rfl : j = i := by simpa using hj
    omega
  obtain ⟨S, s1, s2, s3, s4, s5⟩ := enter_ok { c.s with f := T.f, pos := 0, cur := ra F F.T.f.stack + 2, stack := S0 }
    (c.s.stack (ra F (r+1))) up args ((ok.nest T.f (.self _)).flat.2) hpi hup hal (by show ra F F.T.f.stack + 2 + T.f.upvalsize + T.f.localsize + 2 ≤ 4096; omega)
  obtain ⟨ee, hd, _⟩ := ok.code
  have hm : T.f.minargs = T.f.params.length := by rw [hd.minargs, hpl]
  have step := raw_call c.s r (r + 1 + n : Nat) nn T.f up (c.s.stack (ra F (r+1))) args _ (raw g.f hp h)
    (by rw [rd_reg x g (by omega), e1]) e2 (by rw [hrb, g.f]; show ¬ (_ ≥ 4096); omega) hm (by omega)
    (by have := rd_reg x g (i := r + 1) (by omega); exact this) hargs (by rw [hrb]; omega)
    (by rw [hrb, g.f]; exact s1)
  have low : ∀ k, k < ra F F.T.f.stack → S k = c.s.stack k := by
    intro k hk
    rw [s2 k (by show k < ra F F.T.f.stack + 2; omega)]
    show (if _ then _ else if _ then _ else _) = _
    rw [if_neg (by omega), if_neg (by omega)]
  refine ⟨T, ⟨c.m, { c.env with pars := c.env.pars ++ vs }, { c.s with f := T.f, pos := 0, cur := ra F F.T.f.stack + 2, stack := S }⟩, ok, ?_, ?_, ⟨step, mild_easy g.f h rfl⟩,
    rfl, rfl, rfl, rfl, low, ?_, ?_⟩
  · refine ⟨hus, by rw [hL]; exact hls, by rw [hL]; exact hnd, fun y hy z hz e => ?_, sz, ?_, (ok.nest T.f (.self _)).len, fun g' hg' h' hw => ok.nest h' (.sub hg' hw), x.rel, x.tidy⟩
    · simp only [hL] at hy hz
      have e := (place_in hnd (idx_get hy)).symm.trans (e.trans (place_in hnd (idx_get hz)))
      simp only [Place.par.injEq] at e
      have : ps.idxOf y = ps.idxOf z := by omega
      have := idx_get hy
      rw [‹ps.idxOf y = ps.idxOf z›, idx_get hz] at this
      simpa using this.symm
    · show ra F F.T.f.stack + 2 + (d + 1) * F.A.K + 300 ≤ 4096
      omega
  · have hget : ∀ P, Place.old P c.env.pars.length → Store.get { c.env with pars := c.env.pars ++ vs } P = c.env.get P := by
      intro P hP
      cases P with
      | main y => rfl
      | par i =>
        have := hP i rfl
        simp [Store.get, List.getElem?_append_left this]
    refine ⟨rfl, rfl, fun j y hj => ?_, fun j y hj => ?_, fun P k hP => ?_, g.inj, fun i hi => ?_, fun y hy i e => ?_, g.grow, fun ho => ?_⟩
    · simp only [hL] at hj
      have hjl := (List.getElem?_eq_some_iff.1 hj).1
      refine .inl ⟨?_, ?_⟩
      · show c.m (place (scopeOf ps _ ++ sc) y) = none
        rw [place_in hnd hj]
        exact g.fresh _ (by omega)
      · refine .inl ?_
        show VR _ _ _ (Store.get _ (place (scopeOf ps _ ++ sc) y)) _
        rw [place_in hnd hj]
        have hvj : vs[j]? = some vs[j] := List.getElem?_eq_getElem (by omega)
        have e : Store.get { c.env with pars := c.env.pars ++ vs } (.par (c.env.pars.length + j)) = vs[j] := by
          show ((c.env.pars ++ vs)[c.env.pars.length + j]?).getD .nil = _
          rw [List.getElem?_append_right (by omega), Nat.add_sub_cancel_left, hvj]; rfl
        rw [e]
        have hst : S (la ⟨F.A, T, scopeOf ps c.env.pars.length ++ sc, ra F F.T.f.stack + 2⟩ j) = c.s.stack (ra F (r+2+j)) := by
          have := s4 j j (c.s.stack (ra F (r+2+j))) (hpar j hjl) (by
            show ((List.range' (r+2) T.f.params.length).map fun j => c.s.stack (c.s.rbase + j))[j]? = _
            rw [List.getElem?_map, List.getElem?_range' (by omega), Option.map_some, rb]
            congr 2
            unfold ra; omega)
          rw [← this]
          congr 1
          unfold la
          simp only [hus]
        show VR _ _ _ _ (S _)
        rw [hst]
        exact ha j _ hvj
    · have hy : y ∈ T.U := List.mem_of_getElem? hj
      have hd2 := hd.dis y hy
      rw [hL] at hd2
      have hjl : j < T.U.length := (List.getElem?_eq_some_iff.1 hj).1
      have hlen := e3.length_eq
      have hu : up[j]? = some up[j] := List.getElem?_eq_getElem (by omega)
      have := (List.forall₂_iff_get.1 e3).2 j hjl (by omega)
      obtain ⟨k, k1, k2⟩ := this
      refine ⟨k, ?_, ?_⟩
      · show c.m (place (scopeOf ps _ ++ sc) y) = _
        rw [place_out hd2]
        have : T.U.get ⟨j, hjl⟩ = y := (List.getElem?_eq_some_iff.1 hj).2
        rw [this] at k1; exact k1
      · have := s3 j _ hu
        exact this.trans k2
    · obtain ⟨r0, h1, h2⟩ := g.refs P k hP
      refine ⟨r0, h1, ?_⟩
      have hold : Place.old P c.env.pars.length := by
        intro i e
        by_contra hh
        rw [e, g.fresh i (by omega)] at hP; simp at hP
      refine h2.mono (hget P hold) ?_ (fun _ _ _ h => h) fun _ _ h => h
      cases P <;> rfl
    · refine g.fresh i ?_
      simp only [List.length_append] at hi; omega
    · simp only [hL] at hy
      have e := (place_in hnd (idx_get hy)).symm.trans e
      have := idx_lt hy
      simp only [Place.par.injEq] at e
      simp only [List.length_append]; omega
    · show vtest (S _) = true
      have e : ra ⟨F.A, T, scopeOf ps c.env.pars.length ++ sc, ra F F.T.f.stack + 2⟩ 0 - 1 = ra F F.T.f.stack + 2 + T.f.upvalsize + T.f.localsize := by
        unfold ra; simp only [hL, hls, hus]; omega
      rw [e]
      exact (congrArg vtest s5).trans (hs ho)
  · show S _ = _
    rw [s2 _ (by show _ < ra F F.T.f.stack + 2; omega)]
    show (if _ then _ else if _ then _ else _) = _
    rw [if_neg (by omega), if_pos rfl]
  · show S _ = _
    rw [s2 _ (by show _ < ra F F.T.f.stack + 2; omega)]
    show (if _ then _ else if _ then _ else _) = _
    rw [if_pos rfl]

theorem pos_back {p : Nat} (h : p ≤ 2048) : ((BitVec.ofNat 64 p).setWidth 32).toNat = p := by
  simp only [BitVec.toNat_setWidth, BitVec.toNat_ofNat]; omega

theorem raw_retf (s : State) (a b : Int) (v : Val) (f : Proto) (p : Nat) (s1 : State) (h : s.pos < s.f.len ∧ s.f.code s.pos = ⟨.ret, a, b⟩)
    (hc : s.cur ≠ 0) (h1 : s.rd s.rbase a = some v) (h2 : s.rd s.cur (-2) = some (.fn f)) (h3 : s.rd s.cur (-1) = some (.imm (BitVec.ofNat 64 p)))
    (hp : p ≤ 2048) (hb : 0 ≤ (s.cur : Int) - (s.fsize f + 2) - (f.localsize + f.upvalsize + 1))
    (h4 : State.wr { s with
        f := f
        pos := p
        cur := ((s.cur : Int) - (s.fsize f + 2) - (f.localsize + f.upvalsize + 1)).toNat }
      ((s.cur : Int) - (s.fsize f + 2)).toNat (f.code p).a v = some s1) :
    s.step = .run { s1 with pos := p + 1 } := by
  unfold State.step; rw [if_pos h.1]; simp only [h.2]
  unfold State.ret
  rw [if_pos hc]
  simp only [h1, h2, h3, pos_back hp]
  rw [if_pos hb]
  simp only [h4]

/-- Returning to the caller. -/
theorem step_back (x : Ctx F (d+1)) {c : Cfg} (g : Good F c) {T : Tgt} {sc : List (Ident × Nat)} {c1 c2 : Cfg} {vs : List V} {reg r : Nat} {b : Int}
    (x' : Ctx ⟨F.A, T, sc, ra F F.T.f.stack + 2⟩ d) (hsc : ∀ y ∈ T.L, ∃ i, c.env.pars.length ≤ i ∧ place sc y = .par i)
    (m1 : c1.m = c.m) (v1 : c1.env = { c.env with pars := c.env.pars ++ vs }) (h1 : c1.s.heap = c.s.heap)
    (low : ∀ k, k < ra F F.T.f.stack → c1.s.stack k = c.s.stack k) (hfn : c1.s.stack (ra F F.T.f.stack) = .fn F.T.f)
    (hps : c1.s.stack (ra F F.T.f.stack + 1) = .imm (BitVec.ofNat 64 c.s.pos))
    (ef : Eff ⟨F.A, T, sc, ra F F.T.f.stack + 2⟩ c1 c2) (g2 : Good ⟨F.A, T, sc, ra F F.T.f.stack + 2⟩ c2)
    (hp2 : c2.s.pos < T.f.len) (hc2 : T.f.code c2.s.pos = ⟨.ret, r, 0⟩) (hr : r < 300)
    (hp : c.s.pos < F.T.f.len) (hc : F.T.f.code c.s.pos = ⟨.call, reg, b⟩) (hreg : reg < F.T.f.stack) (hreg2 : reg < 300) :
    ∃ c3 : Cfg, One F.A.ok c2.s c3.s ∧ Eff F c c3 ∧ Good F c3 ∧ c3.env = c2.env ∧ c3.m = c2.m ∧ c3.s.heap = c2.s.heap ∧
      c3.s.pos = c.s.pos + 1 ∧ c3.s.stack (ra F reg) = c2.s.stack (ra ⟨F.A, T, sc, ra F F.T.f.stack + 2⟩ r) ∧
      (∀ k, k < ra F F.T.f.stack → k ≠ ra F reg → c3.s.stack k = c.s.stack k) ∧ c3.s.stack (ra F F.T.f.stack) = .fn F.T.f := by
  have z1 := x.up
  have z2 := x.loc
  have z3 := x.room
  have zl := x.len
  have hra : ∀ i, ra F i = F.cur + F.T.U.length + F.T.L.length + 1 + i := fun i => rfl
  have hra' := ra_lt x' (i := 0) (by omega)
  have hral : ra F F.T.f.stack + 2 < 4096 := by
    have : ra ⟨F.A, T, sc, ra F F.T.f.stack + 2⟩ 0 = ra F F.T.f.stack + 2 + T.U.length + T.L.length + 1 + 0 := rfl
    omega
  have below : ∀ k, k < ra F F.T.f.stack + 2 → c2.s.stack k = c1.s.stack k := ef.below
  have hcur : c2.s.cur = ra F F.T.f.stack + 2 := g2.cur
  have hfs : c2.s.fsize F.T.f = F.T.f.stack := by unfold State.fsize; rw [g2.grow]; simp
  have e1 : (((c2.s.cur : Nat) : Int) - (c2.s.fsize F.T.f + 2)).toNat = ra F 0 := by rw [hcur, hfs, hra, hra]; omega
  have e2 : (((c2.s.cur : Nat) : Int) - (c2.s.fsize F.T.f + 2) - (F.T.f.localsize + F.T.f.upvalsize + 1)).toNat = F.cur := by
    rw [hcur, hfs, hra]; omega
  let v := c2.s.stack (ra ⟨F.A, T, sc, ra F F.T.f.stack + 2⟩ r)
  have st := raw_retf c2.s r 0 v F.T.f c.s.pos
    { c2.s with
      f := F.T.f
      pos := c.s.pos
      cur := F.cur
      stack := fun j => if j = ra F reg then v else c2.s.stack j } (raw g2.f hp2 hc2) (by rw [hcur]; omega) (rd_reg x' g2 hr)
    (by rw [rd_at c2.s c2.s.cur (ra F F.T.f.stack) (-2) (by rw [hcur]; omega) (by omega), below _ (by omega), hfn])
    (by rw [rd_at c2.s c2.s.cur (ra F F.T.f.stack + 1) (-1) (by rw [hcur]; omega) (by omega), below _ (by omega), hps])
    (by omega) (by rw [hcur, hfs, hra]; omega)
    (by
      rw [e1, e2, hc]
      exact wr_at _ _ (ra F reg) _ _ (by rw [hra, hra]; push_cast; omega) (by have := ra_lt x hreg2; omega))
  have keep : ∀ k, k < ra F F.T.f.stack → k ≠ ra F reg → (if k = ra F reg then v else c2.s.stack k) = c.s.stack k := by
    intro k hk hne
    rw [if_neg hne, below k (by omega), low k hk]
  have mono : ∀ P k, c.m P = some k → c2.m P = some k := fun P k h => ef.mono P k (by rw [m1]; exact h)
  have clos : ∀ (n : Nat) g up, c.s.heap[n]? = some (Obj.clo g up) → c2.s.heap[n]? = some (Obj.clo g up) :=
    fun n g up h => ef.clos n g up (by rw [h1]; exact h)
  have hpars : c.env.pars.length ≤ c2.env.pars.length := by
    have := ef.pars
    rw [v1] at this
    simp only [List.length_append] at this; omega
  have hfor : ∀ P, c.m P = none → Place.old P c.env.pars.length →
      c2.m P = none ∧ c2.env.get P = c.env.get P ∧ c2.env.isSet P = c.env.isSet P := by
    intro P hP hold
    have ⟨a1, a2, a3⟩ := ef.foreign P (by rw [m1]; exact hP) (fun y hy e => by
      obtain ⟨i, i1, i2⟩ := hsc y hy
      have e : P = place sc y := e
      have := hold i (e.trans i2)
      omega) (fun i e => by rw [v1]; have := hold i e; simp only [List.length_append]; omega)
    refine ⟨a1, a2.trans ?_, a3.trans (by rw [v1]; cases P <;> rfl)⟩
    rw [v1]
    cases P with
    | main y => rfl
    | par i =>
      have := hold i rfl
      simp [Store.get, List.getElem?_append_left this]
  refine ⟨⟨c2.m, c2.env, { c2.s with
      f := F.T.f
      pos := c.s.pos + 1
      cur := F.cur
      stack := fun j => if j = ra F reg then v else c2.s.stack j }⟩, ⟨st, mild_easy g2.f hc2 rfl⟩, ⟨mono, clos, hpars, fun P h1 h2 h3 => hfor P h1 h3, fun k hk => ?_⟩,
    ⟨rfl, rfl, fun j y hj => ?_, fun j y hj => ?_, g2.refs, g2.inj, g2.fresh, fun y hy i e => Nat.lt_of_lt_of_le (g.old y hy i e) hpars, g2.grow, fun ho => ?_⟩,
    rfl, rfl, rfl, rfl, if_pos rfl, keep, ?_⟩
  · exact keep k (by rw [hra]; omega) (by rw [hra]; omega)
  · have hjl := (List.getElem?_eq_some_iff.1 hj).1
    show (_ ∧ Cfg.var _ _ _ (if la F j = ra F reg then v else c2.s.stack (la F j))) ∨ (∃ k, _ ∧ (if la F j = ra F reg then v else c2.s.stack (la F j)) = _)
    rw [keep _ (by rw [hra]; unfold la; omega) (by rw [hra]; unfold la; omega)]
    rcases g.loc j y hj with ⟨h1, h2⟩ | ⟨k, h1, h2⟩
    · have ⟨a1, a2, a3⟩ := hfor _ h1 (g.old y (List.mem_of_getElem? hj))
      exact .inl ⟨a1, h2.mono a2 a3 clos mono⟩
    · exact .inr ⟨k, mono _ _ h1, h2⟩
  · have hjl := (List.getElem?_eq_some_iff.1 hj).1
    obtain ⟨k, h1, h2⟩ := g.up j y hj
    exact ⟨k, mono _ _ h1, (keep _ (by rw [hra]; omega) (by rw [hra]; omega)).trans h2⟩
  · exact (congrArg vtest (keep _ (by rw [hra, hra]; omega) (by rw [hra, hra]; omega))).trans (g.self ho)
  · show (if _ then _ else _) = _
    rw [if_neg (by rw [hra, hra]; omega), below _ (by omega), hfn]

end Potion.Compile
