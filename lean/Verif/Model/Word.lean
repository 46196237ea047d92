/-!
Model of Potion's tagged machine words (`PN`).
Source: /repo/core/potion.h lines 87-90, 148-174, 197-205, 532-546.
`PN` is `unsigned long`, i.e. a 64-bit word on LP64.
-/
namespace Potion

/-- potion.h:87-90 `typedef unsigned long _PN`. -/
abbrev PN := BitVec 64

/-- potion.h:148 `PN_NIL`. -/
def PN_NIL : PN := 0#64
/-- potion.h:149 `PN_ZERO`. -/
def PN_ZERO : PN := 1#64
/-- potion.h:150 `PN_FALSE`. -/
def PN_FALSE : PN := 2#64
/-- potion.h:151 `PN_TRUE`. -/
def PN_TRUE : PN := 6#64

/-- potion.h:172 `PN_IS_INT(v)  ((PN)(v) & PN_FINTEGER)`. -/
def isInt (v : PN) : Bool := (v &&& 1#64) != 0#64
/-- potion.h:171 `PN_IS_BOOL(v)  ((PN)(v) & PN_FBOOLEAN)`. -/
def isBool (v : PN) : Bool := (v &&& 2#64) != 0#64
/-- potion.h:170 `PN_IS_NIL`. -/
def isNil (v : PN) : Bool := v == PN_NIL
/-- potion.h:169 `PN_IS_PTR(v)  (!PN_IS_INT(v) && ((PN)(v) & PN_REF_MASK))`. -/
def isPtr (v : PN) : Bool := !isInt v && ((v &&& ~~~7#64) != 0#64)
/-- potion.h:164 `PN_TEST(v)`. -/
def pnTest (v : PN) : Bool := (v != PN_FALSE) && (v != PN_NIL)
/-- potion.h:167 `PN_BOOL(v)`. -/
def pnBool (b : Bool) : PN := if b then PN_TRUE else PN_FALSE

/-- potion.h:200 `PN_NUM(i)  ((PN)((((unsigned long)(i))<<1) + PN_FINTEGER))`.
The argument is a C `long`, represented by its mathematical value. -/
def pnNum (i : Int) : PN := ((BitVec.ofInt 64 i) <<< 1) + 1#64
/-- potion.h:201 `PN_INT(x)  ((long)((unsigned long)(x))>>1)`: arithmetic shift. -/
def pnInt (x : PN) : Int := (BitVec.sshiftRight x 1).toInt

/-- The classes distinguished by `potion_type` before following a pointer. -/
inductive WordClass | number | boolean | nil | object
  deriving DecidableEq, Repr

/-- potion.h:532-535 `potion_type`: test order INT, BOOL, NIL, pointer. -/
def wordClass (v : PN) : WordClass :=
  if isInt v then .number
  else if isBool v then .boolean
  else if isNil v then .nil
  else .object

/-- potion.h:245 `PN_NUMHASH(x)`, the `PN_UNIQ` of immediates: `(PNUniq)((x)>>33^(x)^(x)<<11)`. -/
def numHash (w : PN) : Nat := (((w >>> 33) ^^^ w ^^^ (w <<< 11)).setWidth 32).toNat

/-- Integers representable in an immediate (63-bit two's complement). -/
def Fits63 (i : Int) : Prop := -(2^62) ≤ i ∧ i < 2^62

instance (i : Int) : Decidable (Fits63 i) := inferInstanceAs (Decidable (_ ∧ _))

/-- Values of the C type `long`. -/
def FitsLong (i : Int) : Prop := -(2^63) ≤ i ∧ i < 2^63

instance (i : Int) : Decidable (FitsLong i) := inferInstanceAs (Decidable (_ ∧ _))

end Potion
