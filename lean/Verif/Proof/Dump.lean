import Verif.Spec.Dump
import Verif.Proof.Bytes
import Verif.Proof.Word
/-!
Reading back what was written.
-/
namespace Potion.Dump
open Potion Potion.Bytes
variable {D : Type}

theorem leValue_leBytes : ∀ (n v : Nat), leValue (leBytes n v) = v % 256 ^ n
  | 0, v => by simp [leBytes, leValue, Nat.mod_one]
  | n+1, v => by
    simp only [leBytes, leValue, BitVec.toNat_ofNat]
    rw [leValue_leBytes n, show 256 ^ (n + 1) = 256 * 256 ^ n from by rw [Nat.pow_succ, Nat.mul_comm], Nat.mod_mul]

theorem readPN_write (w : PN) (rest : List Byte) : readPN 8 (writePN w ++ rest) = some (w, rest) := by
  have hl : (writePN w).length = 8 := leBytes_length 8 _
  unfold readPN
  rw [if_pos (by simp [hl])]
  rw [List.take_left' hl, List.drop_left' hl]
  have e : BitVec.ofNat 64 (leValue (writePN w)) = w := by
    unfold writePN
    rw [leValue_leBytes]
    apply BitVec.eq_of_toNat_eq
    have := w.isLt
    simp only [BitVec.toNat_ofNat]
    omega
  rw [e]

theorem readBytes_app (s rest : List Byte) : readBytes s.length (s ++ rest) = some (s, rest) := by
  unfold readBytes
  rw [if_pos (by simp)]
  simp

theorem strCount_toNat {n : Nat} (h : n < 2^28 - 1) : (strCount n).toNat = (n + 1) * 16 := by
  unfold strCount
  simp only [BitVec.toNat_ofNat]
  omega

theorem isPtr_of {w : PN} (h2 : w.toNat % 2 = 0) (h8 : 8 ≤ w.toNat) : isPtr w = true := by
  have hi : isInt w = false := by
    rw [Bool.eq_false_iff, ne_eq, isInt_iff]; omega
  simp only [isPtr, hi, Bool.not_false, Bool.true_and, bne_iff_ne]
  intro h
  have e : w = (w &&& 7#64) ||| (w &&& ~~~7#64) := by
    rw [← BitVec.and_or_distrib_left]
    have : (7#64 ||| ~~~7#64) = BitVec.allOnes 64 := by decide
    rw [this, BitVec.and_allOnes]
  rw [h, BitVec.or_zero] at e
  have : w.toNat = w.toNat % 8 := by
    conv => lhs; rw [e]
    simp only [BitVec.toNat_and, BitVec.toNat_ofNat]
    exact Nat.and_two_pow_sub_one_eq_mod w.toNat 3
  omega

theorem and2_of {w : PN} (h : w.toNat % 16 = 0) : w &&& 2#64 = 0#64 := by
  apply BitVec.eq_of_toNat_eq
  simp only [BitVec.toNat_and, BitVec.toNat_ofNat]
  have h1 : w.toNat &&& 2 = (w.toNat &&& 15) &&& 2 := by rw [Nat.and_assoc]; rfl
  have h2 : w.toNat &&& 15 = w.toNat % 16 := Nat.and_two_pow_sub_one_eq_mod w.toNat 4
  show w.toNat &&& 2 = 0
  rw [h1, h2, h]; rfl

theorem or2_and {c : PN} (h : c &&& 2#64 = 0#64) : (c ||| 2#64) &&& 2#64 = 2#64 := by
  apply BitVec.eq_of_getLsbD_eq
  intro i hi
  have := congrArg (fun w : PN => w.getLsbD i) h
  simp only [BitVec.getLsbD_and, BitVec.getLsbD_or, BitVec.getLsbD_zero] at this ⊢
  revert this
  generalize c.getLsbD i = x
  generalize (2#64 : PN).getLsbD i = y
  cases x <;> cases y <;> decide

theorem or2_xor {c : PN} (h : c &&& 2#64 = 0#64) : (c ||| 2#64) ^^^ 2#64 = c := by
  apply BitVec.eq_of_getLsbD_eq
  intro i hi
  have := congrArg (fun w : PN => w.getLsbD i) h
  simp only [BitVec.getLsbD_and, BitVec.getLsbD_or, BitVec.getLsbD_xor, BitVec.getLsbD_zero] at this ⊢
  revert this
  generalize c.getLsbD i = x
  generalize (2#64 : PN).getLsbD i = y
  cases x <;> cases y <;> decide

theorem or2_toNat {c : PN} (h : c.toNat % 16 = 0) : (c ||| 2#64).toNat = c.toNat + 2 := by
  simp only [BitVec.toNat_or, BitVec.toNat_ofNat]
  have := Nat.two_pow_add_eq_or_of_lt (i := 4) (b := 2) (by decide) (c.toNat / 16)
  have e : 2 ^ 4 * (c.toNat / 16) = c.toNat := by omega
  rw [e] at this
  show c.toNat ||| 2 = _
  rw [this]

theorem len_of {n : Nat} {c : PN} (h : c.toNat = (n + 1) * 16) : ((c >>> 4) - 1#64).toNat = n := by
  have := c.isLt
  simp only [BitVec.toNat_sub, BitVec.toNat_ushiftRight, BitVec.toNat_ofNat, Nat.shiftRight_eq_div_pow, h]
  omega

theorem readConst_write (F : Fmt D) (c : Const D) (hc : Plain F c) (rest : List Byte) (ha : Apart F c rest) :
    readConst F 8 (writeConst F c ++ rest) = some (c, rest) := by
  unfold readConst
  cases c with
  | imm w =>
    simp only [writeConst, readPN_write]
    rw [if_neg (by rw [show isPtr w = false from hc]; simp)]
  | str s =>
    have h := strCount_toNat (n := s.length) hc
    simp only [writeConst, List.append_assoc, readPN_write]
    rw [if_pos (isPtr_of (by omega) (by omega)), and2_of (by omega), len_of h]
    simp [readBytes_app]
  | dbl d =>
    have h := strCount_toNat hc.1
    have h0 := and2_of (w := strCount (F.text d).length) (by omega)
    simp only [writeConst, List.append_assoc, readPN_write]
    have ht := or2_toNat (c := strCount (F.text d).length) (by omega)
    rw [if_pos (isPtr_of (by omega) (by omega)), or2_and h0, or2_xor h0, len_of h]
    simp [readBytes_app, hc.2 rest (ha trivial)]
  | ptr => exact absurd hc (by simp [Plain])

theorem allApart_append (F : Fmt D) {next : List Byte} (hn : next ≠ []) (rest : List Byte) : ∀ l : List (Const D), AllApart F l next → AllApart F l (next ++ rest)
  | [], _ => trivial
  | c :: l, h => ⟨fun hd b hb => h.1 hd b (by
      rw [← List.append_assoc] at hb
      have : l.flatMap (writeConst F) ++ next ≠ [] := by simp [hn]
      obtain ⟨x, xs, hx⟩ := List.exists_cons_of_ne_nil this
      rw [hx] at hb ⊢
      exact hb), allApart_append F hn rest l h.2⟩

theorem readConsts_write (F : Fmt D) : ∀ (l : List (Const D)) (rest : List Byte), (∀ c ∈ l, Plain F c) → AllApart F l rest →
    readConsts F 8 l.length (l.flatMap (writeConst F) ++ rest) = some (l, rest)
  | [], rest, _, _ => rfl
  | c :: l, rest, h, ha => by
    simp only [List.flatMap_cons, List.append_assoc, List.length_cons, readConsts]
    rw [readConst_write F c (h c (by simp)) _ ha.1]
    simp only [readConsts_write F l rest (fun c hc => h c (by simp [hc])) ha.2]

theorem readU8_write {n : Nat} (h : n ≤ 255) (rest : List Byte) : readU8 (BitVec.ofNat 8 n :: rest) = some (n, rest) := by
  simp only [readU8, BitVec.toNat_ofNat]
  rw [Nat.mod_eq_of_lt (by omega)]

theorem readValues_write (F : Fmt D) (l : List (Const D)) {next : List Byte} (hn : next ≠ []) (h : Plains F l next) (rest : List Byte) :
    readValues F 8 (writeValues F l ++ (next ++ rest)) = some (l, next ++ rest) := by
  unfold readValues writeValues
  rw [List.cons_append, readU8_write h.1]
  exact readConsts_write F l _ h.2.1 (allApart_append F hn rest l h.2.2)

mutual
/-- The recursion depth needed. -/
def need : Fn D → Nat
  | .mk _ _ _ _ _ _ _ _ protos _ => 1 + needs protos
def needs : List (Fn D) → Nat
  | [] => 0
  | f :: fs => 1 + need f + needs fs
end

mutual
theorem loadFn_dump (F : Fmt D) : ∀ (f : Fn D) (n : Nat) (nested : Bool) (rest : List Byte), FnOk F nested f → need f ≤ n →
    loadFn F 8 n nested (dumpFn F f ++ rest) = some (f, rest)
  | .mk name source sig stack values paths locals upvals protos asmb, n, nested, rest, h, hn => by
    obtain ⟨h1, h2, h3, h4, h5, h6, h7, h8, h9, h10, h11⟩ := h
    obtain ⟨n, rfl⟩ : ∃ m, n = m + 1 := ⟨n - 1, by simp only [need] at hn; omega⟩
    simp only [need] at hn
    have hsrc : writeConst F source = writePN PN_NIL := by rw [h2]; cases nested <;> rfl
    have hrd : ∀ r, readConst F 8 (writePN PN_NIL ++ r) = some (Const.imm PN_NIL, r) := fun r => readConst_write F (.imm PN_NIL) (by simp [Plain]; decide) r (fun h => h.elim)
    have hlen : (BitVec.ofNat 64 asmb.length).toNat = asmb.length := by simp only [BitVec.toNat_ofNat]; omega
    have hw : ∀ c : Const D, writeConst F c ≠ [] := fun c h => by
      have := congrArg List.length h
      cases c <;> simp [writeConst, writePN, leBytes_length] at this
    have g3 := fun r => readValues_write F sig (hw stack) h3 r
    have g5 : ∀ r, readValues F 8 (writeValues F values ++ (writeValues F paths ++ r)) = some (values, writeValues F paths ++ r) :=
      fun r => readValues_write F values (List.cons_ne_nil _ _) h5 (paths.flatMap (writeConst F) ++ r)
    have g6 : ∀ r, readValues F 8 (writeValues F paths ++ (writeValues F locals ++ r)) = some (paths, writeValues F locals ++ r) :=
      fun r => readValues_write F paths (List.cons_ne_nil _ _) h6 (locals.flatMap (writeConst F) ++ r)
    have g7 : ∀ r, readValues F 8 (writeValues F locals ++ (writeValues F upvals ++ r)) = some (locals, writeValues F upvals ++ r) :=
      fun r => readValues_write F locals (List.cons_ne_nil _ _) h7 (upvals.flatMap (writeConst F) ++ r)
    have g8 : ∀ r, readValues F 8 (writeValues F upvals ++ (BitVec.ofNat 8 protos.length :: r)) = some (upvals, BitVec.ofNat 8 protos.length :: r) :=
      fun r => readValues_write F upvals (List.cons_ne_nil _ _) h8 r
    simp only [dumpFn, List.append_assoc, List.cons_append, loadFn, hsrc]
    simp only [readConst_write F name h1.1 _ (fun h => absurd h h1.2), hrd, g3, readConst_write F stack h4.1 _ (fun h => absurd h h4.2), g5, g6, g7, g8, readU8_write h9,
      loadFns_dump F protos n _ h10 (by omega), readPN_write, hlen, readBytes_app, Option.bind_eq_bind, Option.bind_some]
    cases nested <;> simp [h2]
theorem loadFns_dump (F : Fmt D) : ∀ (fs : List (Fn D)) (n : Nat) (rest : List Byte), FnsOk F fs → needs fs ≤ n →
    loadFns F 8 n fs.length (dumpFns F fs ++ rest) = some (fs, rest)
  | [], n, rest, h, hn => by cases n <;> rfl
  | f :: fs, n, rest, h, hn => by
    simp only [needs] at hn
    obtain ⟨n, rfl⟩ : ∃ m, n = m + 1 := ⟨n - 1, by omega⟩
    simp only [dumpFns, List.append_assoc, List.length_cons, loadFns]
    simp only [loadFn_dump F f n true _ h.1 (by omega), loadFns_dump F fs n rest h.2 (by omega), Option.bind_eq_bind, Option.bind_some]
    rfl
end

mutual
theorem need_le (F : Fmt D) : ∀ f : Fn D, need f + 2 ≤ 2 * (dumpFn F f).length
  | .mk name source sig stack values paths locals upvals protos asmb => by
    have := needs_le F protos
    simp only [need, dumpFn, List.length_append, List.length_cons, writePN, leBytes_length]
    omega
theorem needs_le (F : Fmt D) : ∀ fs : List (Fn D), needs fs ≤ 2 * (dumpFns F fs).length
  | [] => by simp [needs]
  | f :: fs => by
    have h1 := need_le F f
    have h2 := needs_le F fs
    simp only [needs, dumpFns, List.length_append]
    omega
end

end Potion.Dump
