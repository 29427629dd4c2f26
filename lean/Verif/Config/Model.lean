import Verif.Dfcxx.Basic
/-
Model of the latency configuration and of the output path table:
  /repo/src/options.h (convertFieldToEnum, parseInternalOpsConfig, parseLatencyConfig),
  /repo/src/model/dfcxx/lib/dfcxx/dfcir_processor.cpp (DFCIRProcessor::DFCIRProcessor),
  /repo/src/model/dfcir/lib/dfcir/passes/DFCIRPassesUtils.cpp (resolveInternalOpType, opTypeToString),
  /repo/src/model/dfcir/lib/dfcir/passes/DFCIRScheduleUtils.cpp (applyConfig),
  /repo/src/model/dfcxx/lib/dfcxx/utils.cpp (outputPathsToVector).
-/
namespace Verif.Config
open Verif.Dfcxx (Fault)

/-- `Ops` (dfcxx/typedefs.h:19-48; DFCIRPasses.h:22-51, same order, so the `static_cast` of dfcir_processor.cpp:50 is
the identity). -/
inductive Ops where
  | UNDEFINED
  | ADD_INT | ADD_FLOAT | SUB_INT | SUB_FLOAT | MUL_INT | MUL_FLOAT | DIV_INT | DIV_FLOAT | NEG_INT | NEG_FLOAT
  | LESS_INT | LESS_FLOAT | LESSEQ_INT | LESSEQ_FLOAT | GREATER_INT | GREATER_FLOAT | GREATEREQ_INT | GREATEREQ_FLOAT
  | EQ_INT | EQ_FLOAT | NEQ_INT | NEQ_FLOAT
  deriving DecidableEq, Repr

open Ops

/-- `convertFieldToEnum` (options.h:290-314). -/
def convertFieldToEnum (field : String) : Ops :=
  if field = "ADD_INT" then ADD_INT else
  if field = "ADD_FLOAT" then ADD_FLOAT else
  if field = "SUB_INT" then SUB_INT else
  if field = "SUB_FLOAT" then SUB_FLOAT else
  if field = "MUL_INT" then MUL_INT else
  if field = "MUL_FLOAT" then MUL_FLOAT else
  if field = "DIV_INT" then DIV_INT else
  if field = "DIV_FLOAT" then DIV_FLOAT else
  if field = "NEG_INT" then NEG_INT else
  if field = "NEG_FLOAT" then NEG_FLOAT else
  if field = "LESS_INT" then LESS_INT else
  if field = "LESS_FLOAT" then LESS_FLOAT else
  if field = "LESSEQ_INT" then LESSEQ_INT else
  if field = "LESSEQ_FLOAT" then LESSEQ_FLOAT else
  if field = "GREATER_INT" then GREATER_INT else
  if field = "GREATER_FLOAT" then GREATER_FLOAT else
  if field = "GREATEREQ_INT" then GREATEREQ_INT else
  if field = "GREATEREQ_FLOAT" then GREATEREQ_FLOAT else
  if field = "EQ_INT" then EQ_INT else
  if field = "EQ_FLOAT" then EQ_FLOAT else
  if field = "NEQ_INT" then NEQ_INT else
  if field = "NEQ_FLOAT" then NEQ_FLOAT else
  UNDEFINED

/-- `opTypeToString` (DFCIRPassesUtils.cpp:60-88). -/
def opTypeToString : Ops → String
  | ADD_INT => "ADD_INT"
  | ADD_FLOAT => "ADD_FLOAT"
  | SUB_INT => "SUB_INT"
  | SUB_FLOAT => "SUB_FLOAT"
  | MUL_INT => "MUL_INT"
  | MUL_FLOAT => "MUL_FLOAT"
  | DIV_INT => "DIV_INT"
  | DIV_FLOAT => "DIV_FLOAT"
  | NEG_INT => "NEG_INT"
  | NEG_FLOAT => "NEG_FLOAT"
  | LESS_INT => "LESS_INT"
  | LESS_FLOAT => "LESS_FLOAT"
  | LESSEQ_INT => "LESSEQ_INT"
  | LESSEQ_FLOAT => "LESSEQ_FLOAT"
  | GREATER_INT => "GREATER_INT"
  | GREATER_FLOAT => "GREATER_FLOAT"
  | GREATEREQ_INT => "GREATEREQ_INT"
  | GREATEREQ_FLOAT => "GREATEREQ_FLOAT"
  | EQ_INT => "EQ_INT"
  | EQ_FLOAT => "EQ_FLOAT"
  | NEQ_INT => "NEQ_INT"
  | NEQ_FLOAT => "NEQ_FLOAT"
  | UNDEFINED => "<unknown>"

/-- `std::unordered_map<Ops, uint16_t>`. -/
abbrev LatMap := Ops → Option Nat

def LatMap.put (m : LatMap) (o : Ops) (n : Nat) : LatMap := fun p => if p = o then some n else m p

/-- The parts of a JSON configuration document the reader looks at: the fields of the top-level object, and the fields
of the objects under `"dfcir"`.  Values are integers (other value types make the JSON library throw). -/
structure JsonDoc where
  top   : List (String × Int)
  dfcir : Option (List (String × Int))

/-- Conversion of a JSON integer to `uint16_t`. -/
def toU16 (z : Int) : Nat := (BitVec.ofInt 16 z).toNat

/-- `parseInternalOpsConfig` (options.h:316-321); `items()` in the order given. -/
def parseInternalOpsConfig (doc : JsonDoc) (m : LatMap) : LatMap :=
  match doc.dfcir with
  | none => m
  | some fields => fields.foldl (fun m kv => m.put (convertFieldToEnum kv.1) (toU16 kv.2)) m

/-- `parseLatencyConfig` (options.h:330-337): no file, or an unreadable one, leaves the map empty. -/
def parseLatencyConfig (file : Option JsonDoc) : LatMap :=
  match file with
  | none => fun _ => none
  | some doc => parseInternalOpsConfig doc (fun _ => none)

/-- `DFCIRProcessor::DFCIRProcessor` (dfcir_processor.cpp:48-54). -/
def processorConfig (m : LatMap) : LatMap := m.put UNDEFINED 0

/-- Operations of the dialect that become scheduling nodes (DFCIROperations.td:245-500). -/
inductive Kind where
  | add | sub | mul | div | neg | less | lessEq | greater | greaterEq | eq | neq   -- units
  | rem | mod | cast                                                                -- Scheduled, but not configurable
  | and | or | xor | not | mux | shl | shr | bits | cat                             -- not Scheduled
  deriving DecidableEq, Repr

/-- The `Scheduled` interface (DFCIROperations.td:148, 249, 461). -/
def Kind.scheduled : Kind → Bool
  | .and | .or | .xor | .not | .mux | .shl | .shr | .bits | .cat => false
  | _ => true

/-- `resolveInternalOpType` (DFCIRPassesUtils.cpp:28-58); `isFloat` is about the *result* type. -/
def resolveInternalOpType (k : Kind) (isFloat : Bool) : Ops :=
  match k with
  | .add => if isFloat then ADD_FLOAT else ADD_INT
  | .sub => if isFloat then SUB_FLOAT else SUB_INT
  | .mul => if isFloat then MUL_FLOAT else MUL_INT
  | .div => if isFloat then DIV_FLOAT else DIV_INT
  | .neg => if isFloat then NEG_FLOAT else NEG_INT
  | .less => if isFloat then LESS_FLOAT else LESS_INT
  | .lessEq => if isFloat then LESSEQ_FLOAT else LESSEQ_INT
  | .greater => if isFloat then GREATER_FLOAT else GREATER_INT
  | .greaterEq => if isFloat then GREATEREQ_FLOAT else GREATEREQ_INT
  | .eq => if isFloat then EQ_FLOAT else EQ_INT
  | .neq => if isFloat then NEQ_FLOAT else NEQ_INT
  | _ => UNDEFINED

/-- Latency of a node after graph construction (DFCIRScheduleUtils.cpp:133: -1 or 0) and `applyConfig`
(lines 13-43). -/
def applyConfig (cfg : LatMap) (k : Kind) (resultFloat : Bool) : Nat :=
  if k.scheduled then
    match cfg (resolveInternalOpType k resultFloat) with
    | some l => l
    | none => 1
  else 0

/-- Everything between the configuration file and the latency of a unit. -/
def unitLatency (file : Option JsonDoc) (k : Kind) (resultFloat : Bool) : Nat :=
  applyConfig (processorConfig (parseLatencyConfig file)) k resultFloat

/-! ### Output paths -/

/-- `OutputFormatID` (dfcxx/typedefs.h:57-66); `COUNT` is 6. -/
inductive Format where
  | SystemVerilog | SVLibrary | UnscheduledDFCIR | ScheduledDFCIR | FIRRTL | DOT | COUNT
  deriving DecidableEq, Repr

/-- `OUT_FORMAT_ID_INT`. -/
def Format.id : Format → Nat
  | SystemVerilog => 0 | SVLibrary => 1 | UnscheduledDFCIR => 2 | ScheduledDFCIR => 3 | FIRRTL => 4 | DOT => 5 | COUNT => 6

/-- `outputPathsToVector` (utils.cpp:17-23); the map as the list of its entries in iteration order; writing beyond the
vector is undefined. -/
def outputPathsToVector (paths : List (Format × String)) : Except Fault (List String) :=
  paths.foldl (fun acc e => match acc with
    | .error f => .error f
    | .ok v => if e.1.id < v.length then .ok (v.set e.1.id e.2) else .error .ub)
    (.ok (List.replicate Format.COUNT.id ""))

/-- `Kernel::compile`, opening of the output streams (kernel.cpp:191-199): one stream per non-empty path. -/
def openStreams (paths : List String) : List (Option String) :=
  paths.map fun p => if p.isEmpty then none else some p

end Verif.Config
