import Verif.Proof.Dump
/-!
C23: bytecode files. `FnOk` (Spec/Dump.lean) says which functions can be stored.
-/
namespace Potion.Dump
open Potion Potion.Bytes
variable {D : Type}

/-- C23: loading the dump of a function gives the function back, with all nested functions. Partial: if each list of
constants, parameters, locals, upvalues, paths and nested functions has at most 255 elements (`C23_refuted`), and
the constants are immediates, strings, or doubles that survive being written as text (C76) and are not followed by bytes that look
like more digits (`C23_refuted_double`). -/
theorem C23_roundtrip_partial (F : Fmt D) (f : Fn D) (h : FnOk F false f) (bs : List Byte) (hd : dump F f = some bs) :
    load F bs = .fn f := by
  unfold dump at hd
  split at hd
  · obtain rfl := by simpa using hd
    have h1 := need_le F f
    have h2 : header.length = 8 := rfl
    unfold load
    rw [if_neg (by
      rintro (h | h)
      · simp only [List.length_append, h2] at h; omega
      · exact h (by rw [List.take_append_of_le_length (by simp [h2])]))]
    have h3 : (((header ++ dumpFn F f)[7]?).getD 0).toNat = 8 := by
      rw [List.getElem?_append_left (by simp [h2])]; rfl
    rw [h3, List.drop_left' h2]
    have := loadFn_dump F f (2 * (header ++ dumpFn F f).length) false [] h (by simp only [List.length_append]; omega)
    rw [List.append_nil] at this
    rw [this]
  · simp at hd

/-- C23: dumping works exactly for functions whose contents take at most 8200 bytes; it writes past the end of its buffer
otherwise. -/
theorem C23_size (F : Fmt D) (f : Fn D) : (dump F f).isSome ↔ (dumpFn F f).length ≤ 8200 := by
  have h2 : header.length = 8 := rfl
  have h3 : capacity = 8208 := by decide
  unfold dump
  split <;> simp only [List.length_append, h2, h3] at * <;> simp <;> omega

/-- C23: different functions have different dumps. -/
theorem C23_injective_partial (F : Fmt D) (f g : Fn D) (hf : FnOk F false f) (hg : FnOk F false g) (bs : List Byte)
    (h1 : dump F f = some bs) (h2 : dump F g = some bs) : f = g := by
  have := C23_roundtrip_partial F f hf bs h1
  rw [C23_roundtrip_partial F g hg bs h2] at this
  exact (Loaded.fn.inj this).symm

/-- C23: what is not a bytecode file is answered with nil. -/
theorem C23_rejects (F : Fmt D) (buf : List Byte) (h : buf.length ≤ 8 ∨ ¬ [0x70, 0x07, 0x08, 0x6e] <+: buf) :
    load F buf = .nil := by
  unfold load
  rw [if_pos]
  rcases h with h | h
  · exact .inl h
  · refine .inr fun e => h ?_
    refine ⟨buf.drop 4, ?_⟩
    have : header.take 4 = [0x70, 0x07, 0x08, 0x6e] := rfl
    rw [← this, ← e, List.take_append_drop]

/-- Decimal digits. -/
def digits (bs : List Byte) : List Byte := bs.takeWhile fun b => decide (48 ≤ b.toNat ∧ b.toNat ≤ 57)

/-- A format for the examples: doubles that are their own text, digits with a point among them. -/
def asText : Fmt (List Byte) := ⟨id, fun bs => digits bs ++ 46#8 :: digits (bs.drop ((digits bs).length + 1))⟩

/-- A function with the given constants and nested functions; two instructions. -/
def exFn (nested : Bool) (values : List (Const (List Byte))) (protos : List (Fn (List Byte))) : Fn (List Byte) :=
  .mk (.imm PN_NIL) (if nested then .ptr else .imm PN_NIL) [.str [97], .imm (pnNum 124), .str [98]] (.imm (pnNum 3)) values []
    [.str [97], .str [98]] [] protos [1, 2, 3, 4, 5, 6, 7, 8]

def exNest : Fn (List Byte) := exFn false [.str [104, 105], .imm (pnNum (-5)), .dbl [49, 46, 53], .imm PN_TRUE, .str []] [exFn true [] [], exFn true [.imm (pnNum 1)] []]

theorem exNest_ok : FnOk asText false exNest := by
  have h : ∀ rest, NoNumber rest → asText.read ([49, 46, 53] ++ rest) = [49, 46, 53] := by
    intro rest hr
    have : digits rest = [] := by
      cases rest with
      | nil => rfl
      | cons b bs => simp [digits, (hr b rfl).1]
    have e : digits ([53] ++ rest) = [53] := by
      show 53 :: digits rest = _
      rw [this]
    show [49] ++ 46#8 :: digits ([53] ++ rest) = _
    rw [e]
    rfl
  have hp : Plain asText (.dbl [49, 46, 53]) := ⟨by decide, h⟩
  simp only [exNest, exFn, FnOk, FnsOk, Plains, List.length_cons, List.length_nil, List.forall_mem_cons, AllApart, Apart, isDbl, hp]
  simp only [Plain]
  simp
  decide +kernel

/-- The values of the function that was loaded. -/
def valuesOf : Loaded (List Byte) → Option (List (Const (List Byte)))
  | .fn (.mk _ _ _ _ values _ _ _ _ _) => some values
  | _ => none
def protosOf : Loaded (List Byte) → Option Nat
  | .fn (.mk _ _ _ _ _ _ _ _ protos _) => some protos.length
  | _ => none

example : FnOk asText false exNest ∧ (dump asText exNest).map List.length = some 331 ∧
    ((dump asText exNest).bind fun bs => valuesOf (load asText bs)) = some [.str [104, 105], .imm (pnNum (-5)), .dbl [49, 46, 53], .imm PN_TRUE, .str []] ∧
    ((dump asText exNest).bind fun bs => protosOf (load asText bs)) = some 2 :=
  ⟨exNest_ok, by decide +kernel⟩

def crashes : Loaded (List Byte) → Bool
  | .crash => true
  | _ => false

/-- C23 fails as stated: a function with 256 constants is dumped, but loading it reads past the end of the dump (the
number of constants is written as 0). -/
theorem C23_refuted : (dump asText (exFn false (List.replicate 256 (.imm (pnNum 1000))) [])).map (fun bs => crashes (load asText bs)) = some true := by
  decide +kernel

/-- C23 fails as stated: the text of a double is read on into the next constant. 1.5 followed by 3.1415926535897931, or by the integer
1048600, comes back as 1.52 or 1.51. -/
theorem C23_refuted_double :
    ((dump asText (exFn false [.dbl [49, 46, 53], .dbl [51, 46, 49, 52, 49, 53, 57, 50, 54, 53, 51, 53, 56, 57, 55, 57, 51, 49]] [])).bind fun bs => valuesOf (load asText bs)) =
      some [.dbl [49, 46, 53, 50], .dbl [51, 46, 49, 52, 49, 53, 57, 50, 54, 53, 51, 53, 56, 57, 55, 57, 51, 49]] ∧
    ((dump asText (exFn false [.dbl [49, 46, 53], .imm (pnNum 1048600)] [])).bind fun bs => valuesOf (load asText bs)) =
      some [.dbl [49, 46, 53, 49], .imm (pnNum 1048600)] := by
  decide +kernel

/-- Also a function with 200 one-word constants in each of its six nested functions overflows the buffer (`C23_size`), although each
list has fewer than 256 elements. -/
theorem C23_refuted_size :
    dump asText (exFn false [] (List.replicate 6 (exFn true (List.replicate 200 (.imm (pnNum 1000))) []))) = none := by
  decide +kernel

end Potion.Dump
