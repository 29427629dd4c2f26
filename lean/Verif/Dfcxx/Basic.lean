import Verif.Dfcxx.Types
/-
Node kinds and node data (node.h:18-55), failure modes, and the C++ 64-bit arithmetic shared by constant
folding (vars/constant.cpp) and the simulator (simulator.cpp).
-/
namespace Verif.Dfcxx

/-- How a call can fail to return normally. -/
inductive Fault where
  | throw        -- a C++ exception leaves the API function
  | assertFail   -- an `assert` fires
  | ub           -- undefined behaviour of C++
  deriving DecidableEq, Repr

/-- node.h:18-45. -/
inductive OpType where
  | NONE | OFFSET | IN | OUT | CONST | MUX
  | ADD | SUB | MUL | DIV | AND | OR | XOR | NOT | NEG
  | LESS | LESSEQ | GREATER | GREATEREQ | EQ | NEQ
  | CAST | SHL | SHR | BITS | CAT
  deriving DecidableEq, Repr

/-- node.h:47-55.  The union is only read through the member belonging to the node's kind, so it is
modelled as a sum. -/
inductive NodeData where
  | none
  | offset (o : Int)
  | muxId (i : Nat)
  | bitShift (k : Nat)
  | bitsRange (left right : Nat)
  deriving DecidableEq, Repr

/-- `SimValue` (simulator.h) and `DFConstant::Value` (constant.h:28-32): 64 raw bits. -/
abbrev Word := BitVec 64

/-- IEEE double operations are not modelled: they are arbitrary functions on the 64-bit representation. -/
structure FloatOps where
  add : Word → Word → Word
  sub : Word → Word → Word
  mul : Word → Word → Word
  div : Word → Word → Word
  neg : Word → Word
  lt  : Word → Word → Bool
  le  : Word → Word → Bool
  eq  : Word → Word → Bool

/-- The C++ type in which an operator is evaluated: `int64_t`, `uint64_t` or `double`. -/
inductive Kind where | int | uint | float
  deriving DecidableEq, Repr

/-- Representation of a C++ `bool` converted to the kind's type and stored in 64 bits
(`double` 1.0 is 0x3FF0000000000000). -/
def ofBool (k : Kind) (b : Bool) : Word :=
  match k, b with
  | _, false => 0
  | .float, true => 0x3FF0000000000000#64
  | _, true => 1

/-- `int64_t` result of a mathematical integer; signed overflow is undefined behaviour. -/
def sres (r : Int) : Except Fault Word :=
  if -(2:Int)^63 ≤ r ∧ r < (2:Int)^63 then .ok (BitVec.ofInt 64 r) else .error .ub

/-- `left OP right` evaluated in the C++ type `k` for the arithmetic operators + - * / and the comparisons
(simulator.cpp:84-88,117-135; constant.cpp:61-71,155-165). `none`: not such an operator. -/
def evalTyped (F : FloatOps) (k : Kind) (op : OpType) (a b : Word) : Option (Except Fault Word) :=
  match op with
  | .ADD => some <| match k with
      | .int => sres (a.toInt + b.toInt) | .uint => .ok (a + b) | .float => .ok (F.add a b)
  | .SUB => some <| match k with
      | .int => sres (a.toInt - b.toInt) | .uint => .ok (a - b) | .float => .ok (F.sub a b)
  | .MUL => some <| match k with
      | .int => sres (a.toInt * b.toInt) | .uint => .ok (a * b) | .float => .ok (F.mul a b)
  | .DIV => some <| match k with
      | .int => if b = 0 then .error .ub else sres (a.toInt.tdiv b.toInt)
      | .uint => if b = 0 then .error .ub else .ok (a / b)
      | .float => .ok (F.div a b)
  | .LESS => some <| .ok <| ofBool k <| match k with
      | .int => a.toInt < b.toInt | .uint => a.toNat < b.toNat | .float => F.lt a b
  | .LESSEQ => some <| .ok <| ofBool k <| match k with
      | .int => a.toInt ≤ b.toInt | .uint => a.toNat ≤ b.toNat | .float => F.le a b
  | .GREATER => some <| .ok <| ofBool k <| match k with
      | .int => a.toInt > b.toInt | .uint => a.toNat > b.toNat | .float => F.lt b a
  | .GREATEREQ => some <| .ok <| ofBool k <| match k with
      | .int => a.toInt ≥ b.toInt | .uint => a.toNat ≥ b.toNat | .float => F.le b a
  | .EQ => some <| .ok <| ofBool k <| match k with
      | .float => F.eq a b | _ => a == b
  | .NEQ => some <| .ok <| ofBool k <| match k with
      | .float => !F.eq a b | _ => a != b
  | _ => none

/-- Bitwise operators work on the raw `uint64_t` whatever the type
(simulator.cpp:137-151; constant.cpp:99-126). -/
def evalBitwise (op : OpType) (a b : Word) : Option Word :=
  match op with
  | .AND => some (a &&& b)
  | .OR  => some (a ||| b)
  | .XOR => some (a ^^^ b)
  | _ => none

/-- Unary minus in the C++ type `k` (simulator.cpp:92-95,159-174; constant.cpp:134-148). -/
def evalNeg (F : FloatOps) (k : Kind) (a : Word) : Except Fault Word :=
  match k with
  | .int => sres (-a.toInt)
  | .uint => .ok (-a)
  | .float => .ok (F.neg a)

/-- `uint64_t << uint8_t` / `>>` (simulator.cpp:176-186; constant.cpp:203-213): a shift count of 64 or more is
undefined behaviour. -/
def evalShl (a : Word) (k : Nat) : Except Fault Word := if k < 64 then .ok (a <<< k) else .error .ub
def evalShr (a : Word) (k : Nat) : Except Fault Word := if k < 64 then .ok (a >>> k) else .error .ub

/-- `DFConstant::kindByType` (constant.cpp:23-33): every non-fixed type, raw bits included, is FLOAT. -/
def kindByType : DFType → Kind
  | .fixed true _ _ => .int
  | .fixed false _ _ => .uint
  | _ => .float

/-- The C++ type the simulator uses for a node whose variable has this type (simulator.cpp:103-113);
`none` is the `return false` of line 112. -/
def simKind : DFType → Option Kind
  | .fixed true _ _ => some .int
  | .fixed false _ _ => some .uint
  | .float _ _ => some .float
  | .rawBits _ => none

def OpType.isComparison : OpType → Bool
  | .LESS | .LESSEQ | .GREATER | .GREATEREQ | .EQ | .NEQ => true | _ => false
def OpType.isArith : OpType → Bool
  | .ADD | .SUB | .MUL | .DIV => true | _ => false
def OpType.isBitwise : OpType → Bool
  | .AND | .OR | .XOR => true | _ => false

/-- Constant folding of a binary operator on two constants (constant.cpp:56-126, 150-201): the kind is the
*left* operand's, the result constant has the left operand's type, for comparisons too.  `none`: not a
binary operator. -/
def foldBinary (F : FloatOps) (op : OpType) (ty : DFType) (a b : Word) : Option (Except Fault Word) :=
  match evalBitwise op a b with
  | some v => some (.ok v)
  | none => evalTyped F (kindByType ty) op a b

/-- Type of the node a binary operator creates when an operand is not a constant
(stream.cpp:22-29, 75-84; scalar.cpp:22-29, 75-84; constant.cpp:74-81, 107-114, 168-177). -/
def streamResultType (op : OpType) (left : DFType) : DFType :=
  if op.isComparison then buildBool else left

end Verif.Dfcxx
