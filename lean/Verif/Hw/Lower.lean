import Verif.Hw.Names
/-
Model of the lowering of shifts, bit ranges, concatenations and multiplexers to FIRRTL primitives:
  /repo/src/model/dfcir/lib/dfcir/passes/DFCIRToFIRRTLPass.cpp lines 702-990.

The FIRRTL primitives themselves (CIRCT 1.110.0) are not part of the repository; they are modelled after the FIRRTL
specification on values consisting of signedness, width and bit pattern.  `none` is a primitive the FIRRTL verifier rejects.
-/
namespace Verif.Hw

/-- A FIRRTL integer value; `n < 2^w` is its bit pattern. -/
structure FVal where
  sgn : Bool
  w : Nat
  n : Nat
  deriving DecidableEq, Repr

/-- Two's complement reading of the bit pattern. -/
def FVal.num (v : FVal) : Int := if v.sgn ∧ 2 ^ v.w ≤ 2 * v.n then (v.n : Int) - 2 ^ v.w else v.n

/-- `firrtl.shl`: appends `k` zeros; the type keeps its signedness. -/
def FVal.shl (v : FVal) (k : Nat) : FVal := ⟨v.sgn, v.w + k, v.n * 2 ^ k⟩

/-- `firrtl.shr`: drops the `k` low bits; an unsigned value may become empty, a signed one keeps at least its sign bit. -/
def FVal.shr (v : FVal) (k : Nat) : FVal :=
  if v.sgn ∧ v.w ≤ k then ⟨v.sgn, 1, v.n / 2 ^ (v.w - 1)⟩ else ⟨v.sgn, v.w - k, v.n / 2 ^ k⟩

/-- `firrtl.pad`: extends to at least `m` bits by the sign bit or by zeros. -/
def FVal.pad (v : FVal) (m : Nat) : FVal :=
  if v.w < m then
    ⟨v.sgn, m, if v.sgn ∧ 2 ^ v.w ≤ 2 * v.n then v.n + (2 ^ m - 2 ^ v.w) else v.n⟩
  else v

/-- `firrtl.bits`: bits `hi` down to `lo`, unsigned. -/
def FVal.bits (v : FVal) (hi lo : Nat) : Option FVal :=
  if lo ≤ hi ∧ hi < v.w then some ⟨false, hi - lo + 1, v.n / 2 ^ lo % 2 ^ (hi - lo + 1)⟩ else none

/-- `firrtl.cat`: the first operand above the second, unsigned; operands of the same signedness. -/
def FVal.cat (a b : FVal) : Option FVal :=
  if a.sgn = b.sgn then some ⟨false, a.w + b.w, a.n * 2 ^ b.w + b.n⟩ else none

/-- `firrtl.asSInt`, `firrtl.asUInt`: same bits. -/
def FVal.asSInt (v : FVal) : FVal := { v with sgn := true }
def FVal.asUInt (v : FVal) : FVal := { v with sgn := false }

/-- `firrtl.multibit_mux idx, v_{k-1}, ..., v_0`: the index counts from the last operand. -/
def multibitMux (idx : FVal) (vs : List FVal) : Option FVal := vs.reverse[idx.n]?

/-- `ShiftLeftOpConversionPattern` (lines 702-780).  The FIRRTL type of the result is the operand's.  For a signed operand of
width 1, `oldWidth - 2` wraps around in `uint32_t` (line 744) and the primitive is rejected. -/
def lowerShl (x : FVal) (k : Nat) : Option FVal :=
  let newShl := x.shl k
  if x.sgn then
    match x.bits (x.w - 1) (x.w - 1), (if x.w < 2 then none else newShl.bits (x.w - 2) 0) with
    | some s, some b =>
      match s.asSInt.cat b.asSInt with
      | some c => some c.asSInt
      | none => none
    | _, _ => none
  else newShl.bits (x.w - 1) 0

/-- `ShiftRightOpConversionPattern` (lines 782-837). -/
def lowerShr (x : FVal) (k : Nat) : FVal := (x.shr k).pad x.w

/-- `MuxOpConversionPattern` (lines 859-899). -/
def lowerMux (control : FVal) (vars : List FVal) : Option FVal :=
  multibitMux (if control.sgn then control.asUInt else control) vars

/-- `BitsOpConversionPattern` (lines 901-937), with its exchange of `left` and `right`: `buf = left; right = left;
left = buf`. -/
def lowerBits (x : FVal) (left right : Nat) : Option FVal :=
  if left < right then
    let buf := left
    let right' := left
    let left' := buf
    x.bits left' right'
  else x.bits left right

/-- `CatOpConversionPattern` (lines 939-963). -/
def lowerCat (a b : FVal) : Option FVal := a.cat b

end Verif.Hw
