/-
Model of the DFCxx type layer.
Sources: /repo/src/model/dfcxx/lib/dfcxx/types/{type,fixed,float,raw_bits}.cpp, type_builder.cpp,
kernel.cpp lines 37-65, vars/var.cpp lines 73-105.

Unsigned C++ integers are natural numbers; every store into a `uintN_t` variable is an explicit reduction
`u16` / `u8`.  Type objects are compared by content where the code uses `operator==` (types are immutable).
Pointer comparison of types (only in `cast`, var.cpp:108) is modelled in `Graph.lean`.
-/
namespace Verif.Dfcxx

/-- Conversion to `uint16_t`. -/
def u16 (n : Nat) : Nat := n % 65536
/-- Conversion to `uint8_t`. -/
def u8 (n : Nat) : Nat := n % 256

/-- `DFTypeImpl` and its three subclasses (types/fixed.h:18-56, float.h:18-39, raw_bits.h). -/
inductive DFType where
  | fixed (signed : Bool) (intBits fracBits : Nat)
  | float (expBits fracBits : Nat)
  | rawBits (bits : Nat)
  deriving DecidableEq, Repr

namespace DFType

/-- fixed.cpp:43 / type.cpp:17. -/
def isFixed : DFType → Bool | fixed .. => true | _ => false
/-- float.cpp:36 / type.cpp:21. -/
def isFloat : DFType → Bool | float .. => true | _ => false
/-- raw_bits.cpp:27 / type.cpp:25. -/
def isRawBits : DFType → Bool | rawBits .. => true | _ => false
/-- fixed.cpp:51-53 (only meaningful for fixed types). -/
def isSigned : DFType → Bool | fixed s _ _ => s | _ => false

/-- `getTotalBits` (fixed.cpp:29-31, float.cpp:24-26, raw_bits.cpp:15-17): computed in `int`, returned as
`uint16_t`. -/
def totalBits : DFType → Nat
  | fixed s i f => u16 ((if s then 1 else 0) + i + f)
  | float e f   => u16 (e + f + 1)
  | rawBits b   => b

/-- `operator==` of the three classes (fixed.cpp:33-41, float.cpp:28-34, raw_bits.cpp:19-25). -/
def eq : DFType → DFType → Bool
  | fixed s i f, fixed s' i' f' => s == s' && i == i' && f == f'
  | float e f, float e' f' => e == e' && f == f'
  | rawBits b, rawBits b' => b == b'
  | _, _ => false

end DFType

/-- type_builder.cpp:13-17 with the `FixedType` constructor fixed.cpp:13-15. -/
def buildFixed (signed : Bool) (intBits fracBits : Nat) : DFType :=
  .fixed signed (u16 intBits) (u16 fracBits)
/-- type_builder.cpp:19-21. -/
def buildBool : DFType := buildFixed false 1 0
/-- type_builder.cpp:23-25: parameters are `uint16_t`, the `FloatType` constructor (float.cpp:13) takes
`uint8_t`. -/
def buildFloat (expBits fracBits : Nat) : DFType := .float (u8 (u16 expBits)) (u8 (u16 fracBits))
/-- type_builder.cpp:44-46. -/
def buildRawBits (bits : Nat) : DFType := .rawBits (u16 bits)

/-- kernel.cpp:37-42 (the argument is a `uint16_t`). -/
def dfUInt (bits : Nat) : DFType := buildFixed false (u16 bits) 0
/-- kernel.cpp:44-50: `none` is the failed assertion of line 45. -/
def dfInt (bits : Nat) : Option DFType :=
  if u16 bits > 0 then some (buildFixed true (u16 bits - 1) 0) else none
/-- kernel.cpp:52-55. -/
def dfFloat (expBits fracBits : Nat) : DFType := buildFloat (u16 expBits) (u16 fracBits)
/-- kernel.cpp:57-60. -/
def dfRawBits (bits : Nat) : DFType := buildRawBits (u16 bits)
/-- kernel.cpp:62-65. -/
def dfBool : DFType := buildBool

/-- The range computation of `DFVariableImpl::operator()` (var.cpp:73-84): `none` is the thrown
exception of line 81; otherwise (left, right, result type). -/
def bitsRange (first second total : Nat) : Option (Nat × Nat × DFType) :=
  let left  := if first > second then first else second
  let right := if first > second then second else first
  if total ≤ left then none
  else some (left, right, buildRawBits (left - right + 1))

/-- Result type of `DFVariableImpl::cat` (var.cpp:95-97). -/
def catType (a b : DFType) : DFType := buildRawBits (u16 (a.totalBits + b.totalBits))

end Verif.Dfcxx
