import Verif.Spec.Scan
/-!
Scanning the stack in memory does what `updList` does on the cells.
-/
namespace Potion.Scan
open Potion

theorem rd_congr {m m' : Mem} {a n : Nat} (h : ∀ x, a ≤ x → x < a + n → m' x = m x) : rd m' a n = rd m a n := by
  induction n generalizing a with
  | zero => rfl
  | succ n ih => rw [rd, rd, h a (by omega) (by omega), ih (fun x h1 h2 => h x (by omega) (by omega))]

theorem rd_div {m : Mem} {a n u : Nat} (k : Nat) (h : ∀ i, i < n → m (a + i) = BitVec.ofNat 8 (u / 256 ^ (k + i))) :
    rd m a n = u / 256 ^ k % 256 ^ n := by
  induction n generalizing a k with
  | zero => simp [rd, Nat.mod_one]
  | succ n ih =>
    have h0 := h 0 (by omega)
    rw [Nat.add_zero, Nat.add_zero] at h0
    rw [rd, h0, ih (k + 1) (fun i hi => by have := h (i + 1) (by omega); rw [show a + 1 + i = a + (i + 1) by omega, this]; congr 3; omega),
      BitVec.toNat_ofNat, show 256 ^ (n + 1) = 256 * 256 ^ n from by rw [Nat.pow_succ, Nat.mul_comm], Nat.mod_mul,
      Nat.div_div_eq_div_mul, show 256 ^ (k + 1) = 256 ^ k * 256 from Nat.pow_succ ..]

theorem rd_wr_same (m : Mem) (a n v : Nat) (h : v < 256 ^ n) : rd (wr m a n v) a n = v := by
  rw [rd_div (u := v) 0]
  · rw [Nat.pow_zero, Nat.div_one, Nat.mod_eq_of_lt h]
  · intro i hi
    simp only [wr]
    rw [if_pos (by omega)]
    congr 3; omega

theorem wr_out {m : Mem} {a n v x : Nat} (h : x < a ∨ a + n ≤ x) : wr m a n v x = m x := by
  simp only [wr]; rw [if_neg (by omega)]

theorem rd_wr_out {m : Mem} {a n v b k : Nat} (h : Disjoint b k a n) : rd (wr m a n v) b k = rd m b k := by
  apply rd_congr
  intro x h1 h2
  apply wr_out
  rcases h with h | h <;> omega

theorem bytes_congr {m m' : Mem} {a b n : Nat} (h : ∀ i, i < n → m' (b + i) = m (a + i)) : bytes m' b n = bytes m a n := by
  apply List.map_congr_left
  intro i hi
  exact h i (by simpa using hi)

theorem rd_lt (m : Mem) (a n : Nat) : rd m a n < 256 ^ n := by
  induction n generalizing a with
  | zero => simp [rd]
  | succ n ih =>
    have := ih (a + 1)
    have h2 := (m a).isLt
    rw [rd, Nat.pow_succ]
    omega

theorem there_pl {r size major isFrom W N pl m c} (S : Shows r size major isFrom W N pl m c) {a : Nat} (h : There c a) :
    ∃ p, pl[a]? = some p := by
  obtain ⟨x, hx, _⟩ := h
  have := (List.getElem?_eq_some_iff.1 hx).1
  exact ⟨pl[a]'(by rw [S.length]; exact this), List.getElem?_eq_getElem _⟩

/-- Following forwarding pointers. -/
theorem fwd_sim {r size major isFrom W N pl m c} (S : Shows r size major isFrom W N pl m c) (ht : TNIL + r.types ≤ FWD)
    {f f' a v : Nat} {p} (hf : f ≤ f') (e : Gc.fwd c f a = some v) (ha : a < N) (hp : pl[a]? = some p) (th : There c a) :
    v < N ∧ There c v ∧ (∀ b, c[v]? ≠ some (.fwd b)) ∧ ∃ q, pl[v]? = some q ∧ fwd m f' p.addr = some q.addr := by
  induction f generalizing f' a p with
  | zero => simp [Gc.fwd] at e
  | succ f ih =>
    obtain ⟨g, rfl⟩ : ∃ g, f' = g + 1 := ⟨f' - 1, by omega⟩
    obtain ⟨al, ge, _⟩ := S.place a p th hp
    have hptr : isPtr p.addr = true := by simp [isPtr]; omega
    have stop : ∀ x, c[a]? = some x → x ≠ .free → (∀ b, x ≠ .fwd b) → rd m p.addr 4 ≠ FWD := by
      intro x hx h1 h2
      cases x with
      | obj o => have := S.obj a o p hx hp; omega
      | fwd b => exact absurd rfl (h2 b)
      | copied b => have := (S.copied a b p hx hp).1; rw [this]; decide
      | free => exact absurd rfl h1
    obtain ⟨x, hx, hfree⟩ := id th
    simp only [Gc.fwd, hx] at e
    cases x with
    | free => exact absurd rfl hfree
    | fwd b =>
      obtain ⟨h1, q, h2, h3⟩ := S.fwd a b p hx hp
      obtain ⟨nb, tb⟩ := S.near a b hx ha
      obtain ⟨r1, r2, r3, r4⟩ := ih (f' := g) (by omega) e nb h2 tb
      refine ⟨r1, r2, r3, ?_⟩
      simp only [fwd, hptr, h1, decide_true, Bool.and_true, if_true, h3]
      exact r4
    | obj o =>
      cases Option.some.inj e
      refine ⟨ha, th, ?_, p, hp, ?_⟩
      · intro b hb; rw [hx] at hb; simp at hb
      · have := stop _ hx (by simp) (by simp)
        simp [fwd, this]
    | copied b =>
      cases Option.some.inj e
      refine ⟨ha, th, ?_, p, hp, ?_⟩
      · intro b hb; rw [hx] at hb; simp at hb
      · have := stop _ hx (by simp) (by simp)
        simp [fwd, this]

theorem need_le {isFrom : Nat → Bool} {pl pl' : List Place} {c c' : Gc.Mem} {N a : Nat} {p : Place} {o}
    (ho : c[a]? = some (.obj o)) (hp : pl[a]? = some p) (hf : isFrom a = true) (hc : c'[a]? = some (.copied b))
    (same : ∀ x, x < N → x ≠ a → c'[x]? = c[x]? ∧ pl'[x]? = pl[x]?) :
    (a < N → need isFrom pl' c' N + p.size = need isFrom pl c N) ∧ (N ≤ a → need isFrom pl' c' N = need isFrom pl c N) := by
  induction N with
  | zero => exact ⟨fun h => by omega, fun _ => rfl⟩
  | succ N ih =>
    obtain ⟨i1, i2⟩ := ih (fun x hx => same x (by omega))
    simp only [need]
    by_cases haN : a = N
    · subst haN
      rw [ho, hp, hc]
      simp only [hf, if_true]
      refine ⟨fun _ => ?_, fun h => by omega⟩
      rw [i2 (Nat.le_refl _)]; omega
    · obtain ⟨s1, s2⟩ := same N (by omega) (fun h => haN h.symm)
      rw [s1, s2]
      exact ⟨fun h => by have := i1 (by omega); omega, fun h => by have := i2 (by omega); omega⟩

theorem need_get {isFrom : Nat → Bool} {pl : List Place} {c : Gc.Mem} {N a : Nat} {p : Place} {o} (h : a < N)
    (ho : c[a]? = some (.obj o)) (hp : pl[a]? = some p) (hf : isFrom a = true) : p.size ≤ need isFrom pl c N := by
  induction N with
  | zero => omega
  | succ N ih =>
    simp only [need]
    by_cases haN : a = N
    · subst haN; rw [ho, hp]; simp [hf]
    · have := ih (by omega); omega

/-- What one step leaves as it was: more cells may be there, in the free space; the others stay. -/
structure Goes (isFrom : Nat → Bool) (N lim lo hi : Nat) (pl pl' : List Place) (s s' : St) (c c' : Gc.Mem) (x : Nat) : Prop where
  grows : ∃ l, pl' = pl ++ l
  cur : s.cur ≤ s'.cur ∧ s'.cur ≤ lim
  there : ∀ a, a < N → (There c' a ↔ There c a)
  still : ∀ y, Still isFrom pl c s.cur lim lo hi y → s'.mem y = s.mem y
  stack : ∀ y, lo ≤ y → y < hi → (y < x ∨ x + 8 ≤ y) → s'.mem y = s.mem y
  header : ∀ (a : Nat) p, a < N → There c a → pl[a]? = some p →
    (∀ y, p.addr ≤ y → y < p.addr + 16 → s'.mem y = s.mem y) ∨ rd s'.mem (p.addr + 12) 4 < TNIL

theorem denotes_mono {r : Regions} {size major isFrom W} {N lim lo hi x : Nat} {pl pl' s s'} {c c' : Gc.Mem}
    (I : Inv r size major isFrom W N lim lo hi pl s c)
    (G : Goes isFrom N lim lo hi pl pl' s s' c c' x) {w v}
    (D : Denotes r N pl s.mem c s.cur lim lo hi w v) : Denotes r N pl' s'.mem c' s'.cur lim lo hi w v := by
  obtain ⟨l, hl⟩ := G.grows
  have same : ∀ a : Nat, a < N → pl'[a]? = pl[a]? := by
    intro a ha
    rw [hl, List.getElem?_append_left]
    rw [I.shows.length]
    exact Nat.lt_of_lt_of_le ha I.shows.old
  cases D with
  | ref h1 h2 h3 => exact .ref h1 ((G.there _ h1).2 h2) ((same _ h1).trans h3)
  | other h => exact .other h
  | quiet h1 h1' h2 h3 h4 h5 =>
    have h4' : Disjoint w 4 s'.cur (lim - s'.cur) := by
      have := G.cur
      simp only [Disjoint] at h4 ⊢; omega
    have pos : ∀ (a : Nat) p, a < N → There c' a → pl'[a]? = some p → Disjoint w 4 p.addr 16 ∨ w = p.addr + 12 :=
      fun a p ha hb hc => h3 a p ha ((G.there a ha).1 hb) ((same a ha).symm.trans hc)
    have key : rd s'.mem w 4 = rd s.mem w 4 ∨ rd s'.mem w 4 < TNIL := by
      by_cases hw : ∃ (a : Nat) (p : Place), a < N ∧ There c a ∧ pl[a]? = some p ∧ w = p.addr + 12
      · obtain ⟨a, p, ha, th, hp, rfl⟩ := hw
        rcases G.header a p ha th hp with h | h
        · left
          apply rd_congr
          intro y y1 y2
          exact h y (by omega) (by omega)
        · exact .inr h
      · left
        apply rd_congr
        intro y y1 y2
        apply G.still
        refine ⟨?_, ?_, ?_⟩
        · intro ⟨z1, z2⟩; simp only [Disjoint] at h5; omega
        · intro ⟨z1, z2⟩; simp only [Disjoint] at h4; omega
        · intro a p hf th hp ⟨z1, z2⟩
          have ha : a < N := by
            rcases Nat.lt_or_ge a N with h | h
            · exact h
            · rw [I.shows.new a h] at hf; cases hf
          rcases h3 a p ha th hp with h | h
          · simp only [Disjoint] at h; omega
          · exact hw ⟨a, p, ha, th, hp, h⟩
    rcases key with k | k
    · exact .quiet (by rw [k]; exact h1) (by rw [k]; exact h1') (by rw [k]; exact h2) pos h4' h5
    · refine .quiet ?_ (by omega) ?_ pos h4' h5
      · have : COPIED = 0xFFFFFFFF := rfl
        have h0 : TNIL = 0x250000 := rfl
        omega
      · have : FWD = 0xFFFFFFFE := rfl
        have h0 : TNIL = 0x250000 := rfl
        omega

theorem goes_refl {r : Regions} {size major isFrom W} {N lim lo hi x : Nat} {pl s} {c : Gc.Mem}
    (I : Inv r size major isFrom W N lim lo hi pl s c) : Goes isFrom N lim lo hi pl pl s s c c x :=
  ⟨⟨[], by simp⟩, ⟨Nat.le_refl _, I.free.order.1⟩, fun _ _ => Iff.rfl, fun _ _ => rfl, fun _ _ _ _ => rfl,
    fun _ _ _ _ _ => .inl fun _ _ _ => rfl⟩

/-- Writing to a word of the stack. -/
theorem write_inv {r : Regions} {size major isFrom W} {N lim lo hi x w : Nat} {pl} {s : St} {c : Gc.Mem}
    (I : Inv r size major isFrom W N lim lo hi pl s c) (h1 : lo ≤ x) (h2 : x + 8 ≤ hi) :
    Inv r size major isFrom W N lim lo hi pl { s with mem := wr s.mem x 8 w } c ∧
    Goes isFrom N lim lo hi pl pl s { s with mem := wr s.mem x 8 w } c c x := by
  have cell : ∀ (a : Nat) p, There c a → pl[a]? = some p → ∀ y, p.addr ≤ y → y < p.addr + p.size → wr s.mem x 8 w y = s.mem y := by
    intro a p th hp y y1 y2
    have := (I.free.cells a p th hp).2
    apply wr_out
    simp only [Disjoint] at this
    omega
  have S := I.shows
  refine ⟨⟨?_, I.free, I.room⟩, ⟨⟨[], by simp⟩, ⟨Nat.le_refl _, I.free.order.1⟩, fun _ _ => Iff.rfl, ?_, ?_, ?_⟩⟩
  · have th : ∀ {a : Nat} {z}, c[a]? = some z → z ≠ .free → There c a := fun h1 h2 => ⟨_, h1, h2⟩
    have head : ∀ (a : Nat) p k d, There c a → pl[a]? = some p → k + d ≤ 16 → rd (wr s.mem x 8 w) (p.addr + d) k = rd s.mem (p.addr + d) k := by
      intro a p k d ta hp hk
      have := (S.place a p ta hp).2.2.1
      apply rd_congr
      intro y y1 y2
      exact cell a p ta hp y (by omega) (by omega)
    refine ⟨S.length, S.old, S.new, S.place, S.apart, S.region, ?_, ?_, S.near, ?_⟩
    · intro a o p ho hp
      have ta := th ho (by simp)
      obtain ⟨t1, t2, t3⟩ := S.obj a o p ho hp
      have e := head a p 4 0 ta hp (by omega)
      rw [Nat.add_zero] at e
      show TNIL ≤ rd (wr s.mem x 8 w) p.addr 4 ∧ _
      rw [e]
      refine ⟨t1, t2, ?_⟩
      rw [bytes_congr (m := s.mem) (a := p.addr)]
      · exact t3
      · intro i hi
        exact cell a p ta hp _ (by omega) (by omega)
    · intro a b p hb hp
      have ta := th hb (by simp)
      have e := head a p 4 0 ta hp (by omega)
      rw [Nat.add_zero] at e
      show rd (wr s.mem x 8 w) p.addr 4 = FWD ∧ _
      rw [e]
      have e8 := head a p 8 8 ta hp (by omega)
      show _ ∧ ∃ q : Place, _ ∧ rd (wr s.mem x 8 w) (p.addr + 8) 8 = q.addr
      rw [e8]
      exact S.fwd a b p hb hp
    · intro a b p hb hp
      have ta := th hb (by simp)
      have e := head a p 4 0 ta hp (by omega)
      rw [Nat.add_zero] at e
      show rd (wr s.mem x 8 w) p.addr 4 = COPIED ∧ _
      rw [e]
      have e8 := head a p 8 8 ta hp (by omega)
      show _ ∧ ∃ q : Place, _ ∧ rd (wr s.mem x 8 w) (p.addr + 8) 8 = q.addr
      rw [e8]
      exact S.copied a b p hb hp
  · intro y hy
    apply wr_out
    have := hy.1
    omega
  · intro y y1 y2 y3
    apply wr_out
    omega
  · intro a p _ th hp
    left
    intro y y1 y2
    have := (S.place a p th hp).2.2.1
    exact cell a p th hp y y1 (by omega)

/-- Copying an object. -/
theorem copy_inv {r : Regions} {size major isFrom W} {N lim lo hi x v : Nat} {pl} {s : St} {c : Gc.Mem} {o : Gc.Obj} {q : Place}
    (I : Inv r size major isFrom W N lim lo hi pl s c) (hW : ∀ o bs, W o bs → W o.copy bs)
    (hv : v < N) (ho : c[v]? = some (.obj o)) (hq : pl[v]? = some q) (hf : isFrom v = true) :
    ∃ s', copy size s q.addr = (s', s.cur) ∧
      Inv r size major isFrom W N lim lo hi (pl ++ [⟨s.cur, q.size⟩]) s' (c.set v (.copied c.length) ++ [.obj o.copy]) ∧
      Goes isFrom N lim lo hi pl (pl ++ [⟨s.cur, q.size⟩]) s s' c (c.set v (.copied c.length) ++ [.obj o.copy]) x ∧
      ∀ y, lo ≤ y → y < hi → s'.mem y = s.mem y := by
  have S := I.shows
  have F := I.free
  have tv : There c v := ⟨_, ho, by simp⟩
  obtain ⟨p1, p2, p3, p4, p5⟩ := S.place v q tv hq
  obtain ⟨_, _, p6⟩ := S.region v q tv hv hq
  obtain ⟨f1, f2⟩ := F.cells v q tv hq
  obtain ⟨d1, d2, d3, d4, d5⟩ := F.order
  have rm := need_get hv ho hq hf (isFrom := isFrom)
  have room := I.room
  obtain ⟨s', hs'⟩ : ∃ s' : St, s' = St.mk (wr (wr (wr (memcpy s.mem s.cur q.addr q.size) q.addr 4 COPIED)
      (q.addr + 4) 4 q.size) (q.addr + 8) 8 s.cur) (s.cur + q.size) := ⟨_, rfl⟩
  have e : copy size s q.addr = (s', s.cur) := by
    simp only [copy]
    rw [← p6, if_neg (by omega), hs']
  have cur' : s'.cur = s.cur + q.size := by rw [hs']
  -- memory
  have mout : ∀ y, (y < s.cur ∨ s.cur + q.size ≤ y) → (y < q.addr ∨ q.addr + 16 ≤ y) → s'.mem y = s.mem y := by
    intro y h1 h2
    rw [hs']
    show wr _ _ _ _ y = _
    rw [wr_out (by omega), wr_out (by omega), wr_out (by omega)]
    simp only [memcpy]
    rw [if_neg (by omega)]
  have min : ∀ i, i < q.size → s'.mem (s.cur + i) = s.mem (q.addr + i) := by
    intro i hi
    rw [hs']
    show wr _ _ _ _ _ = _
    simp only [Disjoint] at f1
    rw [wr_out (by omega), wr_out (by omega), wr_out (by omega)]
    simp only [memcpy]
    rw [if_pos (by omega)]
    congr 1; omega
  have h4 : rd s'.mem q.addr 4 = COPIED := by
    rw [hs']
    show rd (wr _ _ _ _) _ _ = _
    rw [rd_wr_out (by simp only [Disjoint]; omega), rd_wr_out (by simp only [Disjoint]; omega), rd_wr_same _ _ _ _ (by decide)]
  have h8 : rd s'.mem (q.addr + 8) 8 = s.cur := by
    rw [hs']
    show rd (wr _ _ _ _) _ _ = _
    rw [rd_wr_same _ _ _ _ (by
      have : (256 : Nat) ^ 8 = 2 ^ 64 := by decide
      omega)]
  have h12 : rd s'.mem (q.addr + 12) 4 < TNIL := by
    have : rd s'.mem (q.addr + 12) 4 = s.cur / 256 ^ 4 % 256 ^ 4 := by
      apply rd_div
      intro i hi
      rw [hs']
      show wr _ _ _ _ _ = _
      simp only [wr]
      rw [if_pos (by omega)]
      congr 3; omega
    rw [this]
    have t0 : TNIL = 0x250000 := rfl
    rw [t0]
    apply Nat.lt_of_le_of_lt (Nat.mod_le _ _)
    have e4 : (256 : Nat) ^ 4 = 2 ^ 32 := by decide
    rw [e4]
    omega
  -- cells
  obtain ⟨c', hc'⟩ : ∃ c', c' = c.set v (.copied c.length) ++ [Gc.Cell.obj o.copy] := ⟨_, rfl⟩
  obtain ⟨pl', hpl'⟩ : ∃ pl', pl' = pl ++ [(⟨s.cur, q.size⟩ : Place)] := ⟨_, rfl⟩
  rw [← hc', ← hpl']
  have vlt : v < c.length := (List.getElem?_eq_some_iff.1 ho).1
  have len := S.length
  have old := S.old
  have cv : c'[v]? = some (.copied c.length) := by
    rw [hc', List.getElem?_append_left (by simpa using vlt), List.getElem?_set]
    simp [vlt]
  have cn : c'[c.length]? = some (.obj o.copy) := by
    rw [hc', List.getElem?_append_right (by simp)]; simp
  have co : ∀ a : Nat, a ≠ v → a < c.length → c'[a]? = c[a]? := by
    intro a h1 h2
    rw [hc', List.getElem?_append_left (by simpa using h2), List.getElem?_set]
    rw [if_neg (fun h => h1 h.symm)]
  have cmax : ∀ (a : Nat) z, c'[a]? = some z → a ≤ c.length := by
    intro a z h
    have := (List.getElem?_eq_some_iff.1 h).1
    rw [hc'] at this
    simp at this
    omega
  have po : ∀ a : Nat, a < c.length → pl'[a]? = pl[a]? := by
    intro a h
    rw [hpl', List.getElem?_append_left (by omega)]
  have pn : pl'[c.length]? = some ⟨s.cur, q.size⟩ := by
    rw [hpl', List.getElem?_append_right (by omega)]; simp [len]
  have thback : ∀ a, There c' a → a ≠ c.length → There c a ∧ a < c.length := by
    rintro a ⟨z, hz, hz2⟩ hne
    have := cmax a z hz
    refine ⟨?_, by omega⟩
    by_cases hav : a = v
    · subst hav; exact tv
    · rw [co a hav (by omega)] at hz
      exact ⟨z, hz, hz2⟩
  have there : ∀ a, a < N → (There c' a ↔ There c a) := by
    intro a ha
    refine ⟨fun h => (thback a h (by omega)).1, ?_⟩
    rintro ⟨z, hz, hz2⟩
    by_cases hav : a = v
    · subst hav; exact ⟨_, cv, by simp⟩
    · exact ⟨z, by rw [co a hav (by omega)]; exact hz, hz2⟩
  have cellout : ∀ (a : Nat) p, There c a → a ≠ v → pl[a]? = some p → ∀ y, p.addr ≤ y → y < p.addr + p.size → s'.mem y = s.mem y := by
    intro a p ta hav hp y y1 y2
    have h1 := (F.cells a p ta hp).1
    have h2 := S.apart a v p q ta tv hav hp hq
    simp only [Disjoint] at h1 h2
    apply mout <;> omega
  have head : ∀ (a : Nat) p k d, There c a → a ≠ v → pl[a]? = some p → k + d ≤ 16 →
      rd s'.mem (p.addr + d) k = rd s.mem (p.addr + d) k := by
    intro a p k d ta hav hp hk
    have := (S.place a p ta hp).2.2.1
    apply rd_congr
    intro y y1 y2
    exact cellout a p ta hav hp y (by omega) (by omega)
  refine ⟨s', e, ⟨?_, ?_, ?_⟩, ⟨⟨_, hpl'⟩, ⟨by omega, by omega⟩, there, ?_, ?_, ?_⟩, ?_⟩
  · -- Shows
    refine ⟨?_, ?_, S.new, ?_, ?_, ?_, ?_, ?_, ?_, ?_⟩
    · rw [hpl', hc']; simp [len]
    · rw [hc']; simp; omega
    · intro a p ta hp
      by_cases han : a = c.length
      · subst han
        rw [pn] at hp
        cases Option.some.inj hp
        exact ⟨d4, d5, p3, p4, by show s.cur < _; omega⟩
      · obtain ⟨ta', la⟩ := thback a ta han
        rw [po a la] at hp
        exact S.place a p ta' hp
    · intro a b pa pb ta tb hab ha hb
      have cross : ∀ (a : Nat) pa, There c' a → a ≠ c.length → pl'[a]? = some pa → Disjoint pa.addr pa.size s.cur q.size := by
        intro a pa ta han ha
        obtain ⟨ta', la⟩ := thback a ta han
        rw [po a la] at ha
        have := (F.cells a pa ta' ha).1
        simp only [Disjoint] at this ⊢
        omega
      by_cases han : a = c.length
      · subst han
        rw [pn] at ha
        cases Option.some.inj ha
        have := cross b pb tb (fun h => hab h.symm) hb
        simp only [Disjoint] at this ⊢
        omega
      · by_cases hbn : b = c.length
        · subst hbn
          rw [pn] at hb
          cases Option.some.inj hb
          exact cross a pa ta han ha
        · obtain ⟨ta', la⟩ := thback a ta han
          obtain ⟨tb', lb⟩ := thback b tb hbn
          rw [po a la] at ha
          rw [po b lb] at hb
          exact S.apart a b pa pb ta' tb' hab ha hb
    · intro a p ta ha hp
      rw [po a (by omega)] at hp
      exact S.region a p ((there a ha).1 ta) ha hp
    · intro a o' p hoa hp
      by_cases han : a = c.length
      · subst han
        rw [cn] at hoa
        rw [pn] at hp
        cases Option.some.inj hoa
        cases Option.some.inj hp
        obtain ⟨t1, t2, t3⟩ := S.obj v o q ho hq
        have e0 : rd s'.mem s.cur 4 = rd s.mem q.addr 4 := by
          have x0 := min 0 (by omega)
          have x1 := min 1 (by omega)
          have x2 := min 2 (by omega)
          have x3 := min 3 (by omega)
          rw [Nat.add_zero, Nat.add_zero] at x0
          simp only [rd, Nat.add_assoc, x0, x1, x2, x3, Nat.reduceAdd]
        show TNIL ≤ rd s'.mem s.cur 4 ∧ rd s'.mem s.cur 4 < _ ∧ W _ (bytes s'.mem s.cur q.size)
        rw [e0, bytes_congr (m := s.mem) (a := q.addr) (fun i hi => min i hi)]
        exact ⟨t1, t2, hW _ _ t3⟩
      · by_cases hav : a = v
        · subst hav; rw [cv] at hoa; simp at hoa
        · have la := cmax a _ hoa
          rw [co a hav (by omega)] at hoa
          rw [po a (by omega)] at hp
          have ta : There c a := ⟨_, hoa, by simp⟩
          obtain ⟨t1, t2, t3⟩ := S.obj a o' p hoa hp
          have e0 := head a p 4 0 ta hav hp (by omega)
          rw [Nat.add_zero] at e0
          rw [e0, bytes_congr (m := s.mem) (a := p.addr) (fun i hi => cellout a p ta hav hp _ (by omega) (by omega))]
          exact ⟨t1, t2, t3⟩
    · intro a b p hb hp
      have la := cmax a _ hb
      by_cases han : a = c.length
      · subst han; rw [cn] at hb; simp at hb
      · by_cases hav : a = v
        · subst hav; rw [cv] at hb; simp at hb
        · rw [co a hav (by omega)] at hb
          rw [po a (by omega)] at hp
          have ta : There c a := ⟨_, hb, by simp⟩
          obtain ⟨t1, qq, t2, t3⟩ := S.fwd a b p hb hp
          have e0 := head a p 4 0 ta hav hp (by omega)
          rw [Nat.add_zero] at e0
          rw [e0, head a p 8 8 ta hav hp (by omega)]
          refine ⟨t1, qq, ?_, t3⟩
          rw [po b]
          · exact t2
          · have := (List.getElem?_eq_some_iff.1 t2).1
            omega
    · intro a b hb ha
      by_cases hav : a = v
      · subst hav; rw [cv] at hb; simp at hb
      · rw [co a hav (by omega)] at hb
        obtain ⟨h1, h2⟩ := S.near a b hb ha
        exact ⟨h1, (there b h1).2 h2⟩
    · intro a b p hb hp
      have la := cmax a _ hb
      by_cases han : a = c.length
      · subst han; rw [cn] at hb; simp at hb
      · by_cases hav : a = v
        · subst hav
          rw [cv] at hb
          rw [po a vlt, hq] at hp
          cases Option.some.inj hp
          simp only [Option.some.injEq, Gc.Cell.copied.injEq] at hb
          subst hb
          exact ⟨h4, _, pn, h8⟩
        · rw [co a hav (by omega)] at hb
          rw [po a (by omega)] at hp
          have ta : There c a := ⟨_, hb, by simp⟩
          obtain ⟨t1, qq, t2, t3⟩ := S.copied a b p hb hp
          have e0 := head a p 4 0 ta hav hp (by omega)
          rw [Nat.add_zero] at e0
          rw [e0, head a p 8 8 ta hav hp (by omega)]
          refine ⟨t1, qq, ?_, t3⟩
          rw [po b]
          · exact t2
          · have := (List.getElem?_eq_some_iff.1 t2).1
            omega
  · -- Free
    have st := F.stack
    refine ⟨by rw [cur']; omega, ?_, ?_⟩
    · rw [cur']; simp only [Disjoint] at st ⊢; omega
    · intro a p ta hp
      by_cases han : a = c.length
      · subst han
        rw [pn] at hp
        cases Option.some.inj hp
        rw [cur']
        simp only [Disjoint] at st ⊢
        omega
      · obtain ⟨ta', la⟩ := thback a ta han
        rw [po a la] at hp
        obtain ⟨g1, g2⟩ := F.cells a p ta' hp
        refine ⟨?_, g2⟩
        rw [cur']; simp only [Disjoint] at g1 ⊢; omega
  · -- room
    have := (need_le (isFrom := isFrom) (pl' := pl') (N := N) ho hq hf cv (fun x hx hxv => ⟨co x hxv (by omega), po x (by omega)⟩)).1 hv
    omega
  · intro y hy
    obtain ⟨y1, y2, y3⟩ := hy
    have := y3 v q hf tv hq
    apply mout <;> omega
  · intro y y1 y2 _
    have st := F.stack
    simp only [Disjoint] at st f2
    apply mout <;> omega
  · intro a p ha ta hp
    by_cases hav : a = v
    · subst hav
      rw [hq] at hp
      cases Option.some.inj hp
      exact .inr h12
    · left
      intro y y1 y2
      have := (S.place a p ta hp).2.2.1
      exact cellout a p ta hav hp y y1 (by omega)
  · intro y y1 y2
    have st := F.stack
    simp only [Disjoint] at st f2
    apply mout <;> omega

theorem Goes.trans {isFrom : Nat → Bool} {N lim lo hi x x' : Nat} {pl pl1 pl2 : List Place} {s s1 s2 : St} {c c1 c2 : Gc.Mem}
    (hlen : N ≤ pl.length) (nw : ∀ a, N ≤ a → isFrom a = false) (fr : s1.cur ≤ lim) (G : Goes isFrom N lim lo hi pl pl1 s s1 c c1 x)
    (H : Goes isFrom N lim lo hi pl1 pl2 s1 s2 c1 c2 x') (hx : x' = x) : Goes isFrom N lim lo hi pl pl2 s s2 c c2 x := by
  subst hx
  obtain ⟨l, hl⟩ := G.grows
  obtain ⟨l', hl'⟩ := H.grows
  have same : ∀ a : Nat, a < N → pl1[a]? = pl[a]? := by
    intro a ha
    rw [hl, List.getElem?_append_left (by omega)]
  refine ⟨⟨l ++ l', by rw [hl', hl, List.append_assoc]⟩, ⟨by have := G.cur; have := H.cur; omega, H.cur.2⟩, ?_, ?_, ?_, ?_⟩
  · intro a ha; rw [H.there a ha, G.there a ha]
  · intro y hy
    rw [H.still y, G.still y hy]
    obtain ⟨h1, h2, h3⟩ := hy
    refine ⟨h1, by have := G.cur; omega, ?_⟩
    intro a p hf ta hp
    have ha : a < N := by
      rcases Nat.lt_or_ge a N with h | h
      · exact h
      · rw [nw a h] at hf; cases hf
    exact h3 a p hf ((G.there a ha).1 ta) (by rw [← same a ha]; exact hp)
  · intro y h1 h2 h3
    rw [H.stack y h1 h2 h3, G.stack y h1 h2 h3]
  · intro a p ha ta hp
    have h2 := H.header a p ha ((G.there a ha).2 ta) (by rw [same a ha]; exact hp)
    rcases h2 with h2 | h2
    · rcases G.header a p ha ta hp with h1 | h1
      · left
        intro y y1 y2
        rw [h2 y y1 y2, h1 y y1 y2]
      · right
        rw [rd_congr (m := s1.mem)]
        · exact h1
        · intro y y1 y2
          exact h2 y (by omega) (by omega)
    · exact .inr h2

theorem real_of {r : Regions} {m : Mem} {v : Nat} (h : rd m v 4 = COPIED ∨ (TNIL ≤ rd m v 4 ∧ rd m v 4 < TNIL + r.types)) :
    r.real m v = true := by
  simp only [Regions.real, decide_eq_true_eq]
  omega

theorem own_true {r : Regions} {v : Nat} (h : Own r v) : (r.prot v || r.birth v || r.older v) = true := by
  simp only [Bool.or_eq_true, Regions.prot, Regions.birth, Regions.older, decide_eq_true_eq]
  rcases h with h | h | h
  · exact .inl (.inl h)
  · exact .inl (.inr h)
  · exact .inr h

theorem own_false {r : Regions} {v : Nat} (h : ¬Own r v) : (r.prot v || r.birth v || r.older v) = false := by
  rw [← Bool.not_eq_true]
  intro e
  simp only [Bool.or_eq_true, Regions.prot, Regions.birth, Regions.older, decide_eq_true_eq] at e
  rcases e with (e | e) | e
  · exact h (.inl e)
  · exact h (.inr (.inl e))
  · exact h (.inr (.inr e))

theorem from_iff {r : Regions} {major : Bool} {v : Nat} : r.from major v = true ↔ Collected r major v := by
  simp only [Regions.from, Collected, Protected, Young, Old, Bool.and_eq_true, Bool.or_eq_true, Bool.not_eq_true',
    decide_eq_false_iff_not, Regions.prot, Regions.birth, Regions.older, decide_eq_true_eq]

theorem unreal {r : Regions} {m : Mem} {v : Nat} (h1 : rd m v 4 ≠ COPIED) (h2 : ¬(TNIL ≤ rd m v 4 ∧ rd m v 4 < TNIL + r.types)) :
    r.real m v = false := by
  simp only [Regions.real, decide_eq_false_iff_not]
  omega

/-- One word. -/
theorem markWord_sim {r : Regions} {size major isFrom W} {N lim lo hi x fuel : Nat} {pl} {s : St} {c c' : Gc.Mem} {v v' : Gc.Val}
    (I : Inv r size major isFrom W N lim lo hi pl s c) (hW : ∀ o bs, W o bs → W o.copy bs) (ht : TNIL + r.types ≤ FWD)
    (h1 : lo ≤ x) (h2 : x + 8 ≤ hi) (hfuel : c.length + 1 ≤ fuel)
    (D : Denotes r N pl s.mem c s.cur lim lo hi (rd s.mem x 8) v) (e : Gc.upd isFrom c v = some (c', v')) :
    ∃ s' pl', markWord r size major fuel s x = some s' ∧ Inv r size major isFrom W N lim lo hi pl' s' c' ∧
      Goes isFrom N lim lo hi pl pl' s s' c c' x ∧ Stands pl' (rd s'.mem x 8) v' := by
  have S := I.shows
  obtain ⟨w, hw⟩ : ∃ w, w = rd s.mem x 8 := ⟨_, rfl⟩
  rw [← hw] at D
  cases D with
  | other h =>
    simp only [Gc.upd, Option.some.injEq, Prod.mk.injEq] at e
    obtain ⟨rfl, rfl⟩ := e
    refine ⟨s, pl, ?_, I, goes_refl I, by rw [← hw]; exact .imm _⟩
    simp only [markWord, ← hw, own_false h]
    rfl
  | quiet q0 q1 q2 =>
    simp only [Gc.upd, Option.some.injEq, Prod.mk.injEq] at e
    obtain ⟨rfl, rfl⟩ := e
    refine ⟨s, pl, ?_, I, goes_refl I, by rw [← hw]; exact .imm _⟩
    obtain ⟨f, rfl⟩ : ∃ f, fuel = f + 1 := ⟨fuel - 1, by omega⟩
    have hf : fwd s.mem (f + 1) w = some w := by simp [fwd, q2]
    simp only [markWord, ← hw, hf, unreal q0 q1, Bool.and_false, Bool.false_eq_true, if_false, ite_self]
  | @ref a p ha ta hp =>
    obtain ⟨hreg, _, _⟩ := S.region a p ta ha hp
    have hreg := own_true hreg
    simp only [Gc.upd] at e
    cases hfw : Gc.fwd c (c.length + 1) a with
    | none => rw [hfw] at e; cases e
    | some v0 =>
      rw [hfw] at e
      dsimp only at e
      obtain ⟨r1, r2, r3, q, hq, hf⟩ := fwd_sim S ht hfuel hfw ha hp ta
      obtain ⟨_, rf, _⟩ := S.region v0 q r2 r1 hq
      have rf : isFrom v0 = r.from major q.addr := by rw [Bool.eq_iff_iff, from_iff]; exact rf
      have hm : markWord r size major fuel s x =
          if r.from major q.addr && r.real s.mem q.addr then some (forward size s x q.addr) else some s := by
        simp only [markWord, ← hw, hreg, hf, if_true]
      by_cases hfrom : isFrom v0 = true
      · rw [if_pos hfrom] at e
        obtain ⟨z, hz, hzf⟩ := r2
        rw [hz] at e
        cases z with
        | free => exact absurd rfl hzf
        | fwd b => exact absurd hz (r3 b)
        | copied n =>
          simp only [Option.some.injEq, Prod.mk.injEq] at e
          obtain ⟨rfl, rfl⟩ := e
          obtain ⟨t1, q', t2, t3⟩ := S.copied v0 n q hz hq
          obtain ⟨I', G'⟩ := write_inv (w := q'.addr) I h1 h2
          refine ⟨_, pl, ?_, I', G', ?_⟩
          · rw [hm, ← rf, hfrom, real_of (.inl t1)]
            simp only [Bool.and_self, if_true, forward, t1, t3]
          · show Stands pl (rd (wr _ _ _ _) _ _) _
            rw [rd_wr_same]
            · exact .ref t2
            · rw [← t3]; exact rd_lt _ _ _
        | obj o =>
          simp only [Option.some.injEq, Prod.mk.injEq] at e
          obtain ⟨rfl, rfl⟩ := e
          obtain ⟨t1, t2, _⟩ := S.obj v0 o q hz hq
          obtain ⟨s1, c1, I1, G1, st1⟩ := copy_inv (x := x) I hW r1 hz hq hfrom
          obtain ⟨I', G'⟩ := write_inv (w := s.cur) I1 h1 h2
          refine ⟨_, _, ?_, I', G1.trans ?_ S.new G1.cur.2 G' rfl, ?_⟩
          · have nc : rd s.mem q.addr 4 ≠ COPIED := by
              have : COPIED = FWD + 1 := rfl
              omega
            rw [hm, ← rf, hfrom, real_of (.inr ⟨t1, t2⟩)]
            simp only [Bool.and_self, if_true, forward, nc, if_false, c1]
          · rw [S.length]; exact S.old
          · show Stands _ (rd (wr _ _ _ _) _ _) _
            rw [rd_wr_same]
            · refine .ref (p := ⟨s.cur, q.size⟩) ?_
              rw [List.getElem?_append_right (by rw [S.length]; exact Nat.le_refl _)]
              simp [S.length]
            · have := I.free.order
              have e8 : (256 : Nat) ^ 8 = 2 ^ 64 := by decide
              omega
      · rw [if_neg hfrom] at e
        simp only [Option.some.injEq, Prod.mk.injEq] at e
        obtain ⟨rfl, rfl⟩ := e
        refine ⟨s, pl, ?_, I, goes_refl I, by rw [← hw]; exact .ref hp⟩
        rw [hm, ← rf]
        simp [hfrom]

theorem upd_length {isFrom : Nat → Bool} {c c' : Gc.Mem} {v v' : Gc.Val} (e : Gc.upd isFrom c v = some (c', v')) :
    c.length ≤ c'.length := by
  cases v with
  | imm w => simp only [Gc.upd, Option.some.injEq, Prod.mk.injEq] at e; rw [e.1]; exact Nat.le_refl _
  | ref a =>
    simp only [Gc.upd] at e
    split at e
    · cases e
    · split at e
      · split at e
        · simp only [Option.some.injEq, Prod.mk.injEq] at e; rw [e.1]; exact Nat.le_refl _
        · simp only [Option.some.injEq, Prod.mk.injEq] at e; rw [← e.1]; simp
        · cases e
      · simp only [Option.some.injEq, Prod.mk.injEq] at e; rw [e.1]; exact Nat.le_refl _

theorem updList_length {isFrom : Nat → Bool} {c c' : Gc.Mem} {vs vs' : List Gc.Val} (e : Gc.updList isFrom c vs = some (c', vs')) :
    c.length ≤ c'.length := by
  induction vs generalizing c c' vs' with
  | nil => simp only [Gc.updList, Option.some.injEq, Prod.mk.injEq] at e; rw [e.1]; exact Nat.le_refl _
  | cons v vs ih =>
    simp only [Gc.updList] at e
    cases h1 : Gc.upd isFrom c v with
    | none => rw [h1] at e; cases e
    | some x =>
      obtain ⟨c1, v1⟩ := x
      rw [h1] at e
      dsimp only at e
      cases h2 : Gc.updList isFrom c1 vs with
      | none => rw [h2] at e; cases e
      | some y =>
        obtain ⟨c2, vs2⟩ := y
        rw [h2] at e
        simp only [Option.some.injEq, Prod.mk.injEq] at e
        have := upd_length h1
        have := ih h2
        rw [← e.1]; omega

theorem words_succ (m : Mem) (a n : Nat) : words m a (n + 1) = rd m a 8 :: words m (a + 8) n := by
  simp only [words, List.range_succ_eq_map, List.map_cons, List.map_map]
  congr 1
  apply List.map_congr_left
  intro i _
  show rd m (a + 8 * (i + 1)) 8 = rd m (a + 8 + 8 * i) 8
  congr 1; omega

/-- What scanning leaves as it was. -/
structure Goes' (isFrom : Nat → Bool) (N lim lo hi : Nat) (pl pl' : List Place) (s s' : St) (c : Gc.Mem) (x : Nat) : Prop where
  grows : ∃ l, pl' = pl ++ l
  still : ∀ y, Still isFrom pl c s.cur lim lo hi y → s'.mem y = s.mem y
  before : ∀ y, lo ≤ y → y < x → s'.mem y = s.mem y

theorem words_congr {m m' : Mem} {a n : Nat} (h : ∀ x, a ≤ x → x < a + 8 * n → m' x = m x) : words m' a n = words m a n := by
  apply List.map_congr_left
  intro i hi
  have : i < n := by simpa using hi
  apply rd_congr
  intro x h1 h2
  exact h x (by omega) (by omega)

/-- Several words. -/
theorem markArray_sim {r : Regions} {size major isFrom W} {N lim lo hi fuel : Nat} (hW : ∀ o bs, W o bs → W o.copy bs)
    (ht : TNIL + r.types ≤ FWD) {n x : Nat} {pl} {s : St} {c c' : Gc.Mem} {vs vs' : List Gc.Val}
    (I : Inv r size major isFrom W N lim lo hi pl s c)
    (h1 : lo ≤ x) (h2 : x + 8 * n ≤ hi) (hfuel : c'.length + 1 ≤ fuel)
    (D : List.Forall₂ (Denotes r N pl s.mem c s.cur lim lo hi) (words s.mem x n) vs)
    (e : Gc.updList isFrom c vs = some (c', vs')) :
    ∃ s' pl', markArray r size major fuel s x n = some s' ∧ Inv r size major isFrom W N lim lo hi pl' s' c' ∧
      Goes' isFrom N lim lo hi pl pl' s s' c x ∧ List.Forall₂ (Stands pl') (words s'.mem x n) vs' := by
  induction n generalizing x pl s c c' vs vs' with
  | zero =>
    have hvs : vs = [] := by simpa [words] using D
    subst hvs
    simp only [Gc.updList, Option.some.injEq, Prod.mk.injEq] at e
    obtain ⟨rfl, rfl⟩ := e
    exact ⟨s, pl, rfl, I, ⟨⟨[], by simp⟩, fun _ _ => rfl, fun _ _ _ => rfl⟩, by simp [words]⟩
  | succ n ih =>
    rw [words_succ] at D
    obtain ⟨v, vt, D1, D2, rfl⟩ := List.forall₂_cons_left_iff.1 D
    simp only [Gc.updList] at e
    cases e1 : Gc.upd isFrom c v with
    | none => rw [e1] at e; cases e
    | some y =>
      obtain ⟨c1, v1⟩ := y
      rw [e1] at e
      dsimp only at e
      cases e2 : Gc.updList isFrom c1 vt with
      | none => rw [e2] at e; cases e
      | some y =>
        obtain ⟨c2, vs2⟩ := y
        rw [e2] at e
        simp only [Option.some.injEq, Prod.mk.injEq] at e
        obtain ⟨rfl, rfl⟩ := e
        have l1 := upd_length e1
        have l2 := updList_length e2
        obtain ⟨s1, pl1, m1, I1, G1, st1⟩ := markWord_sim (fuel := fuel) I hW ht h1 (by omega)
          (Nat.le_trans (Nat.succ_le_succ (Nat.le_trans l1 l2)) hfuel) D1 e1
        have D2' : List.Forall₂ (Denotes r N pl1 s1.mem c1 s1.cur lim lo hi) (words s1.mem (x + 8) n) vt := by
          rw [words_congr (m := s.mem)]
          · exact D2.imp fun w v d => denotes_mono I G1 d
          · intro y y1 y2
            exact G1.stack y (by omega) (by omega) (by omega)
        obtain ⟨s2, pl2, m2, I2, G2, st2⟩ := ih I1 (by omega) (by omega) hfuel D2' e2
        obtain ⟨l, hl⟩ := G1.grows
        obtain ⟨l', hl'⟩ := G2.grows
        refine ⟨s2, pl2, ?_, I2, ⟨⟨l ++ l', by rw [hl', hl, List.append_assoc]⟩, ?_, ?_⟩, ?_⟩
        · simp only [markArray, m1, m2]
        · intro y hy
          rw [G2.still y, G1.still y hy]
          obtain ⟨k1, k2, k3⟩ := hy
          refine ⟨k1, by have := G1.cur; omega, ?_⟩
          intro a p hf ta hp
          have ha : a < N := by
            rcases Nat.lt_or_ge a N with h | h
            · exact h
            · rw [I.shows.new a h] at hf; cases hf
          refine k3 a p hf ((G1.there a ha).1 ta) ?_
          rw [hl, List.getElem?_append_left] at hp
          · exact hp
          · rw [I.shows.length]; exact Nat.lt_of_lt_of_le ha I.shows.old
        · intro y y1 y2
          rw [G2.before y y1 (by omega), G1.stack y y1 (by omega) (by omega)]
        · rw [words_succ]
          refine .cons ?_ st2
          rw [rd_congr (m := s1.mem)]
          · generalize rd s1.mem x 8 = w at st1 ⊢
            cases st1 with
            | ref h => exact .ref (by
                rw [hl', List.getElem?_append_left]
                · exact h
                · exact (List.getElem?_eq_some_iff.1 h).1)
            | imm => exact .imm _
          · intro y y1 y2
            exact G2.before y (by omega) (by omega)

end Potion.Scan
