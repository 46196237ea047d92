import Verif.Spec.Frames
/-!
Frames of the interpreter: a call does not touch its caller's frame.
-/
namespace Potion.Vm
open Potion

/-- End of the registers of a frame of `g` at `c`. -/
def tp (gr : Nat → Nat) (g : Proto) (c : Nat) : Nat := rb g c + g.stack + gr g.id

theorem tp_ge (gr : Nat → Nat) (g : Proto) (c : Nat) : c < tp gr g c := by unfold tp rb; omega

/-- The saved frames below `c`, down to the one of `f0` at `c0`, suspended at `p0`. -/
inductive Chain (gr : Nat → Nat) (f0 : Proto) (p0 c0 : Nat) (st : Nat → Val) : Nat → Prop
  | base : st (tp gr f0 c0) = .fn f0 → st (tp gr f0 c0 + 1) = .imm (BitVec.ofNat 64 p0) →
      Chain gr f0 p0 c0 st (tp gr f0 c0 + 2)
  | up {g p c} : Chain gr f0 p0 c0 st c → WFp g → 0 ≤ (g.code p).a → p < 2^32 → st (tp gr g c) = .fn g →
      st (tp gr g c + 1) = .imm (BitVec.ofNat 64 p) →
      Chain gr f0 p0 c0 st (tp gr g c + 2)

theorem Chain.ge {gr f0 p0 c0 st c} (h : Chain gr f0 p0 c0 st c) : tp gr f0 c0 + 2 ≤ c := by
  induction h with
  | base => omega
  | @up g p c _ _ _ _ _ _ ih => have := tp_ge gr g c; omega

theorem Chain.congr {gr f0 p0 c0 st st' c} (h : Chain gr f0 p0 c0 st c) (e : ∀ k, k < c → st' k = st k) : Chain gr f0 p0 c0 st' c := by
  induction h with
  | base h1 h2 => exact .base (by rw [e _ (by omega)]; exact h1) (by rw [e _ (by omega)]; exact h2)
  | @up g p c h1 h2 ha hp h3 h4 ih =>
    have := tp_ge gr g c
    exact .up (ih fun k hk => e k (by omega)) h2 ha hp (by rw [e _ (by omega)]; exact h3) (by rw [e _ (by omega)]; exact h4)

/-- While a call made by `f0` is running. -/
structure Inv (gr : Nat → Nat) (f0 : Proto) (p0 c0 : Nat) (st0 : Nat → Val) (s : State) : Prop where
  chain : Chain gr f0 p0 c0 s.stack s.cur
  wf : WFp s.f
  heap : HeapOk s.heap
  grow : s.grow = gr
  same : ∀ k, k < tp gr f0 c0 → s.stack k = st0 k

/-- When it has returned. -/
structure Back (gr : Nat → Nat) (f0 : Proto) (p0 c0 : Nat) (st0 : Nat → Val) (s : State) : Prop where
  f : s.f = f0
  pos : s.pos = p0 + 1
  cur : s.cur = c0
  same : ∀ k, k < tp gr f0 c0 → (k : Int) ≠ rb f0 c0 + (f0.code p0).a → s.stack k = st0 k
  heap : HeapOk s.heap
  grow : s.grow = gr

theorem wr_some {s s' : State} {b i v} (h : s.wr b i v = some s') :
    ∃ k : Nat, (b : Int) + i = k ∧ k < STACK_MAX ∧ s' = { s with stack := fun j => if j = k then v else s.stack j } := by
  unfold State.wr addr at h
  split at h
  · rename_i k hk
    split at hk
    · simp at hk
    · split at hk
      · obtain rfl := by simpa using hk
        obtain rfl := by simpa using h
        exact ⟨((b : Int) + i).toNat, by omega, by assumption, rfl⟩
      · simp at hk
  · simp at h

section
variable {gr : Nat → Nat} {f0 : Proto} {p0 c0 : Nat} {st0 : Nat → Val}

theorem Inv.setPos {s : State} (h : Inv gr f0 p0 c0 st0 s) (p : Nat) : Inv gr f0 p0 c0 st0 { s with pos := p } :=
  ⟨h.chain, h.wf, h.heap, h.grow, h.same⟩

theorem Inv.put {s : State} (h : Inv gr f0 p0 c0 st0 s) (k : Nat) (v : Val) (hk : s.cur ≤ k) (p : Nat) :
    Inv gr f0 p0 c0 st0 { s with stack := fun j => if j = k then v else s.stack j, pos := p } := by
  have := h.chain.ge
  refine ⟨h.chain.congr fun j hj => ?_, h.wf, h.heap, h.grow, fun j hj => ?_⟩
  · exact if_neg (by omega)
  · exact (if_neg (by omega)).trans (h.same j hj)

theorem Inv.wr {s s' : State} (h : Inv gr f0 p0 c0 st0 s) {b i v} (e : s.wr b i v = some s') (hb : s.cur ≤ b) (hi : 0 ≤ i) :
    Inv gr f0 p0 c0 st0 s' ∧ s'.cur = s.cur ∧ s'.f = s.f := by
  obtain ⟨k, h1, _, rfl⟩ := wr_some e
  exact ⟨h.put k v (by omega) s.pos, rfl, rfl⟩

theorem rbase_eq (s : State) : s.rbase = rb s.f s.cur := rfl

theorem Inv.setReg {s s' : State} (h : Inv gr f0 p0 c0 st0 s) {i v} (hi : 0 ≤ i) (e : s.setReg i v = .run s') : Inv gr f0 p0 c0 st0 s' := by
  unfold State.setReg at e
  split at e
  · simp at e
  · rename_i s1 h1
    obtain rfl := by simpa using e
    exact (h.wr h1 (by unfold State.rbase; omega) hi).1.setPos _

theorem HeapOk.push {h : List Obj} (ok : HeapOk h) (o : Obj) (ho : ∀ g up, o = .clo g up → WFp g) : HeapOk (h ++ [o]) := by
  intro n g up e
  by_cases hn : n < h.length
  · rw [List.getElem?_append_left hn] at e; exact ok n g up e
  · rw [List.getElem?_append_right (by omega)] at e
    rcases hm : n - h.length with _ | m
    · rw [hm] at e; exact ho g up (by simpa using e)
    · rw [hm] at e; simp at e

theorem HeapOk.set {h : List Obj} (ok : HeapOk h) (n : Nat) (v : Val) : HeapOk (h.set n (.ref v)) := by
  intro m g up e
  rw [List.getElem?_set] at e
  split at e
  · split at e <;> simp at e
  · exact ok m g up e

theorem Inv.withHeap {s : State} (h : Inv gr f0 p0 c0 st0 s) {hp : List Obj} (ok : HeapOk hp) : Inv gr f0 p0 c0 st0 { s with heap := hp } :=
  ⟨h.chain, h.wf, ok, h.grow, h.same⟩

theorem Inv.math {s s' : State} (h : Inv gr f0 p0 c0 st0 s) {op b} {i : Ins} (hi : 0 ≤ i.a) (e : s.math op b i = .run s') : Inv gr f0 p0 c0 st0 s' := by
  unfold State.math at e
  split at e
  · split at e
    · split at e
      · split at e
        · exact h.setReg hi e
        · exact Inv.setReg (h.withHeap (h.heap.push _ (by simp))) hi e
      · split at e
        · exact h.setReg hi e
        · simp at e
    · simp at e
  · simp at e

theorem Inv.ncmp {s s' : State} (h : Inv gr f0 p0 c0 st0 s) {c} {i : Ins} (hi : 0 ≤ i.a) (e : s.ncmp c i = .run s') : Inv gr f0 p0 c0 st0 s' := by
  unfold State.ncmp at e
  split at e
  · split at e
    · exact h.setReg hi e
    · simp at e
  · simp at e

theorem Inv.veq {s s' : State} (h : Inv gr f0 p0 c0 st0 s) {c} {i : Ins} (hi : 0 ≤ i.a) (e : s.veq c i = .run s') : Inv gr f0 p0 c0 st0 s' := by
  unfold State.veq at e
  split at e
  · exact h.setReg hi e
  · simp at e

theorem Inv.capture : ∀ (n : Nat) (acc : List Val) (s s' : State) (up : List Val), Inv gr f0 p0 c0 st0 s → s.capture n acc = some (s', up) →
    Inv gr f0 p0 c0 st0 s'
  | 0, acc, s, s', up, h, e => by
    simp only [State.capture, Option.some.injEq, Prod.mk.injEq] at e
    rw [← e.1]; exact h
  | n+1, acc, s, s', up, h, e => by
    simp only [State.capture] at e
    have h := h.setPos (s.pos + 1)
    split at e
    · split at e
      · exact Inv.capture n _ _ _ _ h e
      · simp at e
    · rename_i hop
      split at e
      · split at e
        · exact Inv.capture n _ _ _ _ h e
        · split at e
          · rename_i s1 h1
            have hb : 0 ≤ (s.f.code (s.pos + 1)).b := by
              cases h.wf with
              | mk _ _ _ code _ => exact (code (s.pos + 1) (by rw [hop]; simp)).2 (.inr hop)
            have := (h.withHeap (h.heap.push (.ref _) (by simp))).wr h1 (by show s.cur ≤ s.cur + _; omega) hb
            exact Inv.capture n _ _ _ _ this.1 e
          · simp at e
      · simp at e
    · simp at e

theorem Inv.putAll {b : Nat} : ∀ (vs : List Val) (i : Nat) (s s' : State), Inv gr f0 p0 c0 st0 s → s.cur ≤ b → s.putAll b i vs = some s' →
    Inv gr f0 p0 c0 st0 s' ∧ s'.cur = s.cur ∧ s'.f = s.f
  | [], i, s, s', h, hb, e => by
    simp only [State.putAll, Option.some.injEq] at e; subst e; exact ⟨h, rfl, rfl⟩
  | v :: vs, i, s, s', h, hb, e => by
    simp only [State.putAll] at e
    split at e
    · rename_i s1 h1
      obtain ⟨i1, i2, i3⟩ := h.wr h1 hb (by omega)
      obtain ⟨j1, j2, j3⟩ := Inv.putAll vs _ s1 s' i1 (by omega) e
      exact ⟨j1, by omega, by rw [j3, i3]⟩
    · simp at e

theorem Inv.putParams {b : Nat} : ∀ (vs : List (Nat × Val)) (s s' : State), Inv gr f0 p0 c0 st0 s → s.cur ≤ b → s.putParams b vs = some s' →
    Inv gr f0 p0 c0 st0 s'
  | [], s, s', h, hb, e => by
    simp only [State.putParams, Option.some.injEq] at e; subst e; exact h
  | (i, v) :: vs, s, s', h, hb, e => by
    simp only [State.putParams] at e
    split at e
    · rename_i s1 h1
      obtain ⟨i1, i2, i3⟩ := h.wr h1 hb (by omega)
      exact Inv.putParams vs s1 s' i1 (by omega) e
    · simp at e

theorem Inv.enter {s s' : State} (h : Inv gr f0 p0 c0 st0 s) {self up args} (e : s.enter self up args = some s') : Inv gr f0 p0 c0 st0 s' := by
  unfold State.enter at e
  split at e
  · simp at e
  · split at e
    · simp at e
    · rename_i s1 h1
      have i1 : Inv gr f0 p0 c0 st0 s1 ∧ s1.cur = s.cur ∧ s1.f = s.f := by
        obtain ⟨k, k1, _, rfl⟩ := wr_some h1
        exact ⟨h.put k _ (by unfold State.rbase at k1; omega) s.pos, rfl, rfl⟩
      obtain ⟨i1, c1, f1⟩ := i1
      split at e
      · simp at e
      · rename_i s2 h2
        obtain ⟨i2, c2, f2⟩ := i1.wr h2 (by unfold State.rbase; omega) (by omega)
        split at e
        · simp at e
        · rename_i s3 h3
          obtain ⟨i3, c3, f3⟩ := Inv.putAll _ _ _ _ i2 (by omega) h3
          exact Inv.putParams _ _ _ i3 (by unfold State.lbase; omega) e

theorem fill_none {r : Int} : ∀ (ds : List (Option PN)) (s s' : State) (k : Nat), (∀ d ∈ ds, d = none) → s.fill r k ds = some s' → s' = s
  | [], s, s', k, _, e => by simpa [State.fill] using e.symm
  | d :: ds, s, s', k, h, e => by
    obtain rfl := h d (by simp)
    simp [State.fill] at e

theorem left_none {g : Proto} (h : WFp g) (k : Nat) : ∀ d ∈ g.left k, d = none := by
  obtain ⟨_, hn, _, _, _⟩ := h
  intro d hd
  obtain ⟨j, _, rfl⟩ := List.mem_map.1 hd
  rcases hj : g.defaults[j]? with _ | d
  · rfl
  · rw [hn d (List.mem_of_getElem? hj)]; rfl

/-- What CALL does, when no arguments are filled in. -/
theorem call_run {s s' : State} {i : Ins} (hh : HeapOk s.heap) (e : s.call i = .run s') :
    ∃ (n : Nat) (g : Proto) (up : List Val) (self : Val) (args : List Val) (t : State),
      s.rd s.rbase i.a = some (.obj n) ∧ s.heap[n]? = some (.clo g up) ∧ s.rd s.rbase (i.a + 1) = some self ∧
      s.reads s.rbase g.params.length (i.a + 2) = some args ∧
      t = { f := g, pos := 0, cur := tp s.grow s.f s.cur + 2, heap := s.heap, grow := s.grow,
            stack := fun j => if j = tp s.grow s.f s.cur + 1 then .imm (BitVec.ofNat 64 s.pos) else
              if j = tp s.grow s.f s.cur then .fn s.f else s.stack j } ∧
      t.enter self up args = some s' := by
  unfold State.call at e
  split at e
  · split at e
    · rename_i _ n hr _ g up hn
      split at e
      · simp at e
      · split at e
        · simp at e
        · split at e
          · simp at e
          · split at e
            · rename_i self s0 hself hfill
              obtain rfl := fill_none _ _ _ _ (left_none (hh n g up hn) _) hfill
              split at e
              · simp at e
              · rename_i args hargs
                simp only [] at e
                split at e
                · simp at e
                · rename_i s1 h1
                  split at e
                  · simp at e
                  · rename_i s2 h2
                    split at e
                    · simp at e
                    · rename_i s3 h3
                      obtain rfl := by simpa using e
                      obtain ⟨k1, e1, _, rfl⟩ := wr_some h1
                      obtain ⟨k2, e2, _, rfl⟩ := wr_some h2
                      have ec : s0.rbase + s0.fsize s0.f = tp s0.grow s0.f s0.cur := by unfold tp State.fsize; rw [rbase_eq]; omega
                      rw [ec] at e1 e2
                      have e1 : k1 = tp s0.grow s0.f s0.cur := by omega
                      have e2 : k2 = tp s0.grow s0.f s0.cur + 1 := by omega
                      subst e1 e2
                      rw [ec] at h3
                      exact ⟨n, g, up, self, args, _, hr, hn, hself, hargs, rfl, h3⟩
            · simp at e
    · simp at e
  · simp at e

/-- Entering a call from any frame. -/
theorem call_enters {s s' : State} {i : Ins} (hh : HeapOk s.heap) (hgr : s.grow = gr) (e : s.call i = .run s')
    (mk : ∀ (st : Nat → Val), (∀ k, k < tp gr s.f s.cur → st k = s.stack k) → st (tp gr s.f s.cur) = .fn s.f →
      st (tp gr s.f s.cur + 1) = .imm (BitVec.ofNat 64 s.pos) →
      Chain gr f0 p0 c0 st (tp gr s.f s.cur + 2) ∧ ∀ k, k < tp gr f0 c0 → st k = st0 k) : Inv gr f0 p0 c0 st0 s' := by
  obtain ⟨n, g, up, self, args, t, _, hn, _, _, rfl, h3⟩ := call_run hh e
  subst hgr
  refine Inv.enter ?_ h3
  obtain ⟨m1, m2⟩ := mk (fun j => if j = tp s.grow s.f s.cur + 1 then .imm (BitVec.ofNat 64 s.pos) else
    if j = tp s.grow s.f s.cur then .fn s.f else s.stack j) (fun k hk => by
      show (if _ then _ else if _ then _ else _) = _
      rw [if_neg (by omega), if_neg (by omega)]) (by simp) (by simp)
  exact ⟨m1, hh n g up hn, hh, rfl, m2⟩

theorem Inv.call {s s' : State} (h : Inv gr f0 p0 c0 st0 s) {i : Ins} (ha : 0 ≤ (s.f.code s.pos).a) (hp : s.pos < 2^32) (e : s.call i = .run s') :
    Inv gr f0 p0 c0 st0 s' := by
  refine call_enters h.heap h.grow e fun st a b c => ?_
  have hg := h.chain.ge
  have ht := tp_ge gr s.f s.cur
  refine ⟨.up (h.chain.congr fun k hk => a k (by omega)) h.wf ha hp b c, fun k hk => ?_⟩
  rw [a k (by omega)]
  exact h.same k hk

theorem rd_at {s : State} {b : Nat} {i : Int} {v} (h : s.rd b i = some v) {k : Nat} (hk : (b : Int) + i = k) : s.stack k = v := by
  unfold State.rd addr at h
  split at h
  · rename_i k' hk'
    split at hk'
    · simp at hk'
    · split at hk'
      · obtain rfl := by simpa using hk'
        rw [show ((b : Int) + i).toNat = k by omega] at h
        simpa using h
      · simp at hk'
  · simp at h

theorem pos32 {p : Nat} (hp : p < 2^32) : ((BitVec.ofNat 64 p).setWidth 32).toNat = p := by
  simp only [BitVec.toNat_setWidth, BitVec.toNat_ofNat]
  omega

/-- RETURN to the frame of `g` at `c`. -/
theorem ret_to {s s' : State} {g : Proto} {p c : Nat} (hp : p < 2^32) (hgr : s.grow = gr) (hc : s.cur = tp gr g c + 2) (h1 : s.stack (tp gr g c) = .fn g)
    (h2 : s.stack (tp gr g c + 1) = .imm (BitVec.ofNat 64 p)) {i : Ins} (e : s.ret i = .run s') :
    ∃ v k, s.rd s.rbase i.a = some v ∧ (rb g c : Int) + (g.code p).a = (k : Nat) ∧
      s' = { f := g, pos := p + 1, cur := c, stack := fun j => if j = k then v else s.stack j, heap := s.heap, grow := gr } := by
  unfold State.ret at e
  rw [if_pos (by omega)] at e
  split at e
  · rename_i val f q hv hf hq
    have hf := rd_at hf (k := tp gr g c) (by omega)
    have hq := rd_at hq (k := tp gr g c + 1) (by omega)
    rw [h1] at hf
    rw [h2] at hq
    obtain rfl := by simpa using hf
    obtain rfl := by simpa using hq
    simp only [pos32 hp] at e
    subst hgr
    have hcc : ((s.cur : Int) - (s.fsize g + 2)) - (g.localsize + g.upvalsize + 1) = c := by unfold tp rb at hc; unfold State.fsize; omega
    have hrr : ((s.cur : Int) - (s.fsize g + 2)).toNat = rb g c := by unfold tp at *; unfold State.fsize; omega
    rw [hcc, hrr, if_pos (by omega)] at e
    split at e
    · simp at e
    · rename_i s1 h1
      obtain rfl := by simpa using e
      obtain ⟨k, e1, _, rfl⟩ := wr_some h1
      exact ⟨val, k, hv, e1, by simp⟩
  · simp at e

theorem Inv.ret {s s' : State} (hp : p0 < 2^32) (h : Inv gr f0 p0 c0 st0 s) {i : Ins} (e : s.ret i = .run s') :
    Inv gr f0 p0 c0 st0 s' ∨ Back gr f0 p0 c0 st0 s' := by
  obtain ⟨hch, hwf, hheap, hgr, hsame⟩ := h
  generalize hcur : s.cur = cc at hch
  cases hch with
  | base b1 b2 =>
    obtain ⟨v, k, _, h2, rfl⟩ := ret_to hp hgr hcur b1 b2 e
    refine .inr ⟨rfl, rfl, rfl, fun j hj hne => ?_, hheap, rfl⟩
    exact (if_neg (by omega)).trans (hsame j hj)
  | @up g p c b1 b2 b3 b4 b5 b6 =>
    obtain ⟨v, k, _, h2, rfl⟩ := ret_to b4 hgr hcur b5 b6 e
    have hg := b1.ge
    have hk : c ≤ k := by unfold rb at h2; omega
    refine .inl ⟨b1.congr fun j hj => ?_, b2, hheap, rfl, fun j hj => ?_⟩
    · exact if_neg (by omega)
    · exact (if_neg (by omega)).trans (hsame j hj)

theorem Inv.step {s s' : State} (hp : p0 < 2^32) (h : Inv gr f0 p0 c0 st0 s) (e : s.step = .run s') :
    Inv gr f0 p0 c0 st0 s' ∨ Back gr f0 p0 c0 st0 s' := by
  obtain ⟨hlen, _, _, hcode, hprotos⟩ := h.wf
  unfold State.step at e
  split at e
  · rename_i hpos
    have hi := hcode s.pos
    have hl : s.lbase = s.cur + s.f.upvalsize := rfl
    simp only [] at e
    by_cases hj : (s.f.code s.pos).op = .jmp
    · rw [hj] at e
      obtain rfl := by simpa using e
      exact .inl (h.setPos _)
    have ha : 0 ≤ (s.f.code s.pos).a := (hi hj).1
    split at e <;> rename_i hop
    all_goals first
      | exact .inl (h.math ha e)
      | exact .inl (h.ncmp ha e)
      | exact .inl (h.veq ha e)
      | exact .inl (h.setReg ha e)
      | exact .inl (h.call ha (by omega) e)
      | exact h.ret hp e
      | exact absurd hop hj
      | simp at e
      | (split at e <;> first | (simp at e; done) | exact .inl (h.setReg ha e))
      | skip
    · split at e
      · split at e
        · split at e
          · exact .inl (h.setReg ha e)
          · simp at e
        · exact .inl (h.setReg ha e)
      · simp at e
    · split at e
      · split at e
        · obtain rfl := by simpa using e
          exact .inl ((h.withHeap (h.heap.set _ _)).setPos _)
        · split at e
          · rename_i s1 h1
            obtain rfl := by simpa using e
            exact .inl ((h.wr h1 (by omega) ((hi hj).2 (.inl hop))).1.setPos _)
          · simp at e
      · simp at e
    · split at e
      · split at e
        · split at e
          · exact .inl (h.setReg ha e)
          · simp at e
        · simp at e
      · simp at e
    · split at e
      · split at e
        · obtain rfl := by simpa using e
          exact .inl ((h.withHeap (h.heap.set _ _)).setPos _)
        · simp at e
      · simp at e
    · split at e
      · split at e
        · exact .inl (h.setReg ha e)
        · simp at e
      · simp at e
    · split at e
      · obtain rfl := by simpa using e
        exact .inl (h.setPos _)
      · simp at e
    · split at e
      · obtain rfl := by simpa using e
        exact .inl (h.setPos _)
      · simp at e
    · split at e
      · rename_i g hg
        split at e
        · rename_i s1 up h1
          have i1 := Inv.capture _ _ _ _ _ h h1
          have wg : WFp g := by
            split at hg
            · exact hprotos g (List.mem_of_getElem? hg)
            · simp at hg
          exact .inl (Inv.setReg (i1.withHeap (i1.heap.push (.clo g up) (by rintro _ _ ⟨⟩; exact wg))) ha e)
        · simp at e
      · simp at e
  · split at e <;> simp at e

end

end Potion.Vm
