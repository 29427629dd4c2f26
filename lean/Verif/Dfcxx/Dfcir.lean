import Verif.Dfcxx.Sim
/-
Model of the translation of a graph to DFCIR: /repo/src/model/dfcxx/lib/dfcxx/dfcir_builder.cpp lines 22-29
(buildKernelBody), 54-85 (DFCIRTypeConverter), 89-352 (translate) and node.cpp:27-32 (getConnection).

An SSA value is identified by its number: the n-th operation with a result defines value n.
-/
namespace Verif.Dfcxx

/-- Operations of the dialect the builder creates (DFCIROperations.td). -/
inductive DKind where
  | offset | input | scalarInput | output | scalarOutput | constant | mux
  | add | sub | mul | div | and | or | xor | not | neg
  | less | lessEq | greater | greaterEq | eq | notEq | cast | shl | shr | bits | cat
  deriving DecidableEq, Repr

/-- Attributes: the name, the integer attributes, or a constant's value. -/
inductive DAttr where
  | none
  | name (s : String)
  | ints (l : List Int)
  | const (width : Nat) (value : Nat)
  deriving DecidableEq, Repr

/-- Outer type constructor: stream, scalar or constant (lines 76-83). -/
inductive DWrap where | stream | scalar | const
  deriving DecidableEq, Repr

/-- A DFCIR type: the wrapper and the data type (lines 56-85; every data type has a counterpart). -/
structure DTy where
  wrap : DWrap
  ty : DFType
  deriving DecidableEq, Repr

/-- `conv[var]`. -/
def convTy (n : NodeV) : DTy :=
  match n.kind with
  | .stream => ⟨.stream, n.ty⟩
  | .scalar => ⟨.scalar, n.ty⟩
  | .const _ => ⟨.const, n.ty⟩

/-- The number a constant holds (`getKind`, constant.cpp:23-34: INT for signed fixed-point types). -/
def constInt (ty : DFType) (c : Word) : Int := if ty.isSigned then c.toInt else c.toNat

/-- The bits of `IntegerAttr::get(attrType, val)` (lines 131-158): the attribute type is signed for INT constants only, so only their value is
sign-extended to widths over 64; to narrower widths the value is truncated. -/
def constBits (ty : DFType) (c : Word) : Nat := (constInt ty c % 2 ^ ty.totalBits).toNat

/-- One created operation: with a result (operands are SSA values) or `dfcir.connect dest, src`. -/
inductive DStmt where
  | op (kind : DKind) (ty : DTy) (attr : DAttr) (operands : List Nat)
  | connect (dest src : Nat)
  deriving DecidableEq, Repr

/-- State of `buildKernelBody`: operations so far (reversed), number of SSA values, and `map`. -/
structure DState where
  out : List DStmt
  next : Nat
  map : Nat → Option Nat

def DState.init : DState := ⟨[], 0, fun _ => none⟩

/-- `map[node]`: a missing entry is a null value; creating an operation with a null operand is undefined behaviour. -/
def DState.get (s : DState) (n : Nat) : Except Fault Nat :=
  match s.map n with
  | some v => .ok v
  | none => .error .ub

/-- `ins[i]->source`: indexing past the end is undefined behaviour. -/
def insAt (n : NodeV) (i : Nat) : Except Fault Nat :=
  match n.srcs[i]? with
  | some s => .ok s
  | none => .error .ub

/-- The node kinds with two operands `ins[0]`, `ins[1]` and no attribute (lines 181-318). -/
def binaryKind : OpType → Option DKind
  | .ADD => some .add
  | .SUB => some .sub
  | .MUL => some .mul
  | .DIV => some .div
  | .AND => some .and
  | .OR => some .or
  | .XOR => some .xor
  | .LESS => some .less
  | .LESSEQ => some .lessEq
  | .GREATER => some .greater
  | .GREATEREQ => some .greaterEq
  | .EQ => some .eq
  | .NEQ => some .notEq
  | .CAT => some .cat
  | _ => none

/-- The node kinds with one operand (lines 100-109, 231-242, 292-336) and their integer attributes. The attributes are wide
enough for the C++ fields they come from (`int64_t` offset in 64 bits, `uint8_t`/`uint16_t` in 32 bits), so they are kept as
they are. -/
def unaryKind (n : NodeV) : Option (DKind × DAttr) :=
  match n.op, n.data with
  | .NOT, _ => some (.not, .none)
  | .NEG, _ => some (.neg, .none)
  | .CAST, _ => some (.cast, .none)
  | .OFFSET, .offset o => some (.offset, .ints [o])
  | .SHL, .bitShift k => some (.shl, .ints [k])
  | .SHR, .bitShift k => some (.shr, .ints [k])
  | .BITS, .bitsRange l r => some (.bits, .ints [l, r])
  | _, _ => none

/-- The multiplexer's data operands (lines 164-176): all inputs but `muxId`, from the last to the first. -/
def muxOperands (srcs : List Nat) (muxId : Nat) : List Nat :=
  (List.range srcs.length).filterMap fun i =>
    let ind := srcs.length - 1 - i
    if ind ≠ muxId then srcs[ind]? else none

/-- The `switch` of `translate` (lines 98-343): the operation created for the node. -/
def nodeStmt (V : Nat → NodeV) (s : DState) (n : Nat) : Except Fault DStmt :=
  let v := V n
  match binaryKind v.op with
  | some k => do
    let a ← s.get (← insAt v 0)
    let b ← s.get (← insAt v 1)
    return .op k (convTy v) .none [a, b]
  | none =>
    match unaryKind v with
    | some (k, attr) => do
      let src ← insAt v 0
      let a ← s.get src
      return .op k (if v.op = .OFFSET then convTy (V src) else convTy v) attr [a]
    | none =>
      match v.op with
      | .IN => return .op (if v.kind = .stream then .input else .scalarInput) (convTy v) (.name v.name) []
      | .OUT => return .op (if v.kind = .stream then .output else .scalarOutput) (convTy v) (.name v.name) []
      | .CONST =>
        match v.kind with
        | .const c => return .op .constant (convTy v) (.const v.ty.totalBits (constBits v.ty c)) []
        | _ => .error .ub
      | .MUX =>
        match v.data with
        | .muxId m => do
          let ctrl ← s.get (← insAt v m)
          let alts ← (muxOperands v.srcs m).mapM s.get
          return .op .mux (convTy v) .none (ctrl :: alts)
        | _ => .error .ub
      | _ => .error .assertFail

/-- `Node::getConnection` (node.cpp:27-32). -/
def getConnection (n : NodeV) : Option Nat :=
  match n.ins with
  | [(src, true)] => some src
  | _ => none

/-- `translate` (lines 89-352). -/
def translate (V : Nat → NodeV) (s : DState) (n : Nat) : Except Fault DState := do
  let stmt ← nodeStmt V s n
  let s' : DState := ⟨stmt :: s.out, s.next + 1, fun m => if m = n then some s.next else s.map m⟩
  match getConnection (V n) with
  | some src => do
    let d ← s'.get n
    let v ← s'.get src
    return { s' with out := .connect d v :: s'.out }
  | none => return s'

/-- `buildKernelBody` (lines 22-29) for a given processing order: the operations created, in order. -/
def buildFrom (V : Nat → NodeV) : DState → List Nat → Except Fault DState
  | s, [] => .ok s
  | s, n :: rest => do
    let s' ← translate V s n
    buildFrom V s' rest

def buildBody (V : Nat → NodeV) (order : List Nat) : Except Fault (List DStmt) := do
  let s ← buildFrom V .init order
  return s.out.reverse

end Verif.Dfcxx
