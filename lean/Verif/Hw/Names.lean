import Verif.Dfcxx.Basic
/-
Model of module naming, module sharing and stub selection in the hardware back end (/repo/src/model/dfcir):
  lib/dfcir/DFCIRTypes.cpp (printSVSignature),
  lib/dfcir/passes/DFCIRToFIRRTLPass.cpp (FIRRTLTypeConverter, SchedulableOpConversionPattern, LatencyOpConversionPattern),
  include/dfcir/passes/ModuleDefines.inc,
  lib/dfcir/passes/FIRRTLStubsGeneratorPass.cpp (fillDictionary, processBinModule: choice of the template and operator).

Names are lists of characters.
-/
namespace Verif.Hw

/-- Data types of the dialect (DFCIRTypes.td:45-90). -/
inductive Ty where
  | fixed (sign : Bool) (int frac : Nat)
  | float (exp frac : Nat)
  | bits (n : Nat)
  deriving DecidableEq, Repr

/-- FIRRTL integer types. -/
inductive FTy where
  | uint (w : Nat)
  | sint (w : Nat)
  deriving DecidableEq, Repr

def FTy.width : FTy → Nat
  | .uint w => w
  | .sint w => w

/-- `FIRRTLTypeConverter` (DFCIRToFIRRTLPass.cpp:60-90). -/
def convertType : Ty → FTy
  | .bits n => .uint n
  | .fixed s i f => if s then .sint (1 + i + f) else .uint (i + f)
  | .float e f => .uint (1 + e + f)

/-- Operations that become instances of external modules (DFCIRToFIRRTLPass.cpp:516-527, 683-700). -/
inductive UnitKind where
  | add | sub | mul | div | neg | less | lesseq | greater | greatereq | eq | neq | cast
  deriving DecidableEq, Repr

/-- Text after `__` in the base names (ModuleDefines.inc:10-30). -/
def UnitKind.text : UnitKind → List Char
  | .add => ['A', 'D', 'D']
  | .sub => ['S', 'U', 'B']
  | .mul => ['M', 'U', 'L']
  | .div => ['D', 'I', 'V']
  | .neg => ['N', 'E', 'G']
  | .less => ['L', 'E', 'S', 'S']
  | .lesseq => ['L', 'E', 'S', 'S', 'E', 'Q']
  | .greater => ['G', 'R', 'E', 'A', 'T', 'E', 'R']
  | .greatereq => ['G', 'R', 'E', 'A', 'T', 'E', 'R', 'E', 'Q']
  | .eq => ['E', 'Q']
  | .neq => ['N', 'E', 'Q']
  | .cast => ['C', 'A', 'S', 'T']

/-- `AND_MODULE`, `OR_MODULE`, `XOR_MODULE`, `BUF_MODULE` (ModuleDefines.inc:16-18, 39), after `__`. -/
def andText : List Char := ['A', 'N', 'D']
def orText : List Char := ['O', 'R']
def xorText : List Char := ['X', 'O', 'R']
def fifoText : List Char := ['F', 'I', 'F', 'O']

/-- Base module name: `"__"` and the text. -/
def base (text : List Char) : List Char := '_' :: '_' :: text

/-- Decimal printing by `raw_ostream`. -/
def dec (n : Nat) : List Char := Nat.toDigits 10 n

/-- `printSVSignature` (DFCIRTypes.cpp:18-37). -/
def signature : Ty → List Char
  | .fixed s i f => ['f', 'i', 'x', '_'] ++ dec (if s then 1 else 0) ++ ['_'] ++ dec i ++ ['_'] ++ dec f
  | .float e f => ['f', 'l', 't', '_'] ++ dec e ++ ['_'] ++ dec f
  | .bits n => ['b', 'i', 't', 's', '_'] ++ dec n

/-- A scheduled operation: a unit with its operand types, result type and `latency` attribute (-1 when unset), or a
buffer (`dfcir.latency`) of a value of type `t`. -/
inductive HwOp where
  | unit (k : UnitKind) (ins : List Ty) (out : Ty) (latency : Int)
  | fifo (t : Ty) (latency : Int)
  deriving DecidableEq, Repr

/-- `getPosLatency` (DFCIROpInterfaces.td:82-87). -/
def posLatency (l : Int) : Nat := if 0 ≤ l then l.toNat else 0

/-- `constructModuleName` (DFCIRToFIRRTLPass.cpp:376-402; for buffers 1010-1027). -/
def constructModuleName : HwOp → List Char
  | .unit k ins out l =>
    base k.text ++ ins.flatMap (fun t => ['_', 'I', 'N', '_'] ++ signature t) ++
      (['_', 'O', 'U', 'T', '_'] ++ signature out) ++ ['_'] ++ dec (posLatency l)
  | .fifo t l =>
    base fifoText ++ ['_', 'I', 'N', '_'] ++ dec (convertType t).width ++ ['_', 'O', 'U', 'T', '_'] ++
      dec (convertType t).width ++ ['_'] ++ dec (posLatency l)

/-- An external module: name, type of `res1`, types of `arg1`, `arg2`, ..., latency attribute. -/
structure Module where
  name : List Char
  res : FTy
  args : List FTy
  latency : Nat
  deriving DecidableEq, Repr

/-- `createModule` (DFCIRToFIRRTLPass.cpp:404-437).  The operands have been converted before, so their types are the
converted ones. -/
def createModule (op : HwOp) : Module :=
  match op with
  | .unit _ ins out l => ⟨constructModuleName op, convertType out, ins.map convertType, posLatency l⟩
  | .fifo t l => ⟨constructModuleName op, convertType t, [convertType t], posLatency l⟩

/-- `findOrCreateModule` (lines 469-483): the module found by name, or a new one. -/
def findOrCreateModule (circuit : List Module) (op : HwOp) : List Module × Module :=
  match circuit.find? (fun m => m.name = constructModuleName op) with
  | some m => (circuit, m)
  | none => (createModule op :: circuit, createModule op)

/-- Converting the operations of a kernel one after the other: the circuit's modules at the end, and the module each
operation was made an instance of. -/
def convertAll : List Module → List HwOp → List Module × List Module
  | circuit, [] => (circuit, [])
  | circuit, op :: ops =>
    let (c, m) := findOrCreateModule circuit op
    let (c', ms) := convertAll c ops
    (c', m :: ms)

/-! ### Stub selection -/

/-- `llvm::StringRef::contains`. -/
def contains : List Char → List Char → Bool
  | [], p => p.isEmpty
  | c :: s, p => p.isPrefixOf (c :: s) || contains s p

/-- Verilog operators of the stub templates. -/
inductive VOp where
  | add | sub | mul | le | ge | lt | gt | eq | ne | and | or | xor
  deriving DecidableEq, Repr

inductive Stub where
  | fifo
  | cast
  | binary (op : VOp)
  deriving DecidableEq, Repr

/-- `fillDictionary` and `processBinModule` (FIRRTLStubsGeneratorPass.cpp:99-127, 203-213): which template and operator a
module gets; `none`: no module is generated. -/
def stubOf (name : List Char) : Option Stub :=
  if contains name (base fifoText) then some .fifo
  else if contains name (base UnitKind.cast.text) then some .cast
  else if contains name (base UnitKind.add.text) then some (.binary .add)
  else if contains name (base UnitKind.sub.text) then some (.binary .sub)
  else if contains name (base UnitKind.mul.text) then some (.binary .mul)
  else if contains name (base UnitKind.lesseq.text) then some (.binary .le)
  else if contains name (base UnitKind.greatereq.text) then some (.binary .ge)
  else if contains name (base UnitKind.less.text) then some (.binary .lt)
  else if contains name (base UnitKind.greater.text) then some (.binary .gt)
  else if contains name (base UnitKind.eq.text) then some (.binary .eq)
  else if contains name (base UnitKind.neq.text) then some (.binary .ne)
  else if contains name (base andText) then some (.binary .and)
  else if contains name (base orText) then some (.binary .or)
  else if contains name (base xorText) then some (.binary .xor)
  else none

end Verif.Hw
