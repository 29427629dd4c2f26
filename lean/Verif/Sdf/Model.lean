import Verif.Text.Api
/-
The scheduled DFCIR (`--out-scheduled-dfcir`): where the inserted operations stand in the block, the text of the scheduled block, and what the conversion
to FIRRTL makes of a DFCIR text.

Sources: /repo/src/model/dfcir/include/dfcir/passes/DFCIRGraph.h:163-203 (`insertBuffer`, insertion points),
/repo/src/model/dfcir/lib/dfcir/passes/DFCIRPassesUtils.cpp:17-26 (`eraseOffsets`), DFCIRScheduleUtils.cpp:13-43 (`applyConfig`, `setLatency`),
/repo/src/model/dfcxx/lib/dfcxx/dfcir_processor.cpp:62-86 (the text is printed after the scheduling pass), DFCIROpInterfaces.td:72-91
(`getLatency`, `getPosLatency`), DFCIRToFIRRTLPass.cpp.
-/
namespace Verif.Sdf
open Verif.Dfcxx Verif.Flow Verif.Sched Verif.Text

/-! ### The order of the operations -/

/-- An operation of a block, in terms of `Prog`: the one that defines a value, or the `dfcir.connect` to an output. -/
inductive Line where
  | val (v : Nat)
  | con (d : Nat)
  deriving DecidableEq, Repr

/-- The operations of the block the builder made (dfcir_builder.cpp:22-29, 346-351); `k`: number of the next value. -/
def linesFrom : Nat → List DStmt → List Line
  | _, [] => []
  | k, .op _ _ _ _ :: r => .val k :: linesFrom (k + 1) r
  | k, .connect d _ :: r => .con d :: linesFrom k r

/-- `setInsertionPoint(x)` and `create`: the new operation `y` stands immediately before `x`. -/
def before (x y : Line) : List Line → List Line
  | [] => []
  | l :: ls => if l = x then y :: l :: ls else l :: before x y ls

/-- Where a buffer is inserted (DFCIRGraph.h:173-174, 184-190): before the operation that reads the value, or before the connection. -/
def lineBuffer (new : Nat) (c : Sched.Chan) (ls : List Line) : List Line :=
  before (if 0 ≤ c.valInd then .val c.tgt else .con c.tgt) (.val new) ls

/-- `insertBuffers` (DFCIRGraph.h:198-203); `k`: number of the next buffer. -/
def lineBuffers : Nat → List (Sched.Chan × Int) → List Line → List Line
  | _, [], ls => ls
  | k, (c, _) :: bs, ls => lineBuffers (k + 1) bs (lineBuffer k c ls)

/-- Operations that have not been erased (DFCIRPassesUtils.cpp:17-26). -/
def alive (X : Prog) : Line → Bool
  | .val v => decide (X.defn v ≠ .erased)
  | .con _ => true

/-- The operations of the scheduled block, in order.  `bs`: the buffers in the order of insertion; `X`: the result. -/
def schedLines (prog : List DStmt) (bs : List (Sched.Chan × Int)) (X : Prog) : List Line :=
  (lineBuffers (progOf prog).size bs (linesFrom 0 prog)).filter (alive X)

/-- The values defined by a list of operations. -/
def valsOf (ls : List Line) : List Nat :=
  ls.filterMap fun l => match l with
    | .val v => some v
    | .con _ => none

/-! ### The text -/

/-- The printer numbers the values of the block in order (`AsmPrinter`). -/
def numIn (ls : List Line) (v : Nat) : Nat := (valsOf ls).idxOf v

/-- `setLatency` (DFCIROpInterfaces.td:110-122). -/
def withLat (l : Int) : Stmt → Stmt
  | .sched1 k _ x t => .sched1 k (intAttr 32 l) x t
  | .sched2 k _ x y t => .sched2 k (intAttr 32 l) x y t
  | s => s

/-- Operands of an operation, but the sources of connections. -/
def operandsOf : Def → List Nat
  | .node args => args
  | .offset s _ => [s]
  | .latency s _ => [s]
  | _ => []

/-- An operation of the scheduled block as the printer sees it.  `att`: the latency attributes; `num`: the numbers of the values. -/
def lineText (prog : List DStmt) (X : Prog) (att : Nat → Int) (num : Nat → Nat) : Line → Option Stmt
  | .con d => match X.defn d with
    | .output (some s) => some (.connect (num d) (num s))
    | _ => none
  | .val v => match X.defn v with
    | .latency s n => some (.latency (intAttr 32 n) (num s) (dtyText (valTy (valueTy prog) X v)))
    | d => match (opsOf prog)[v]? with
      | some o => (stmtText (.op o.kind (valueTy prog v) o.attr ((operandsOf d).map num))).map (withLat (att v))
      | none => none

/-- The module after scheduling. -/
def schedFile (name : String) (prog : List DStmt) (bs : List (Sched.Chan × Int)) (X : Prog) (att : Nat → Int) : Option File :=
  ((schedLines prog bs X).mapM (lineText prog X att (numIn (schedLines prog bs X)))).map fun b => ⟨nameChars name, b⟩

/-- What `--out-scheduled-dfcir` writes. -/
def schedText (name : String) (prog : List DStmt) (bs : List (Sched.Chan × Int)) (X : Prog) (att : Nat → Int) : Option (List Char) :=
  (schedFile name prog bs X att).map print

/-! ### The conversion of a DFCIR text to FIRRTL -/

/-- A parsed operation in terms of the back end's model: with its latency, if it has one. -/
inductive SStmt where
  | op (o : OpInfo) (lat : Int)
  | buffer (n : Int) (x : Nat) (ty : DFType)
  | connect (d s : Nat)
  deriving DecidableEq, Repr

/-- `DFCIRToFIRRTL`'s view of a type (the wrapper does not matter). -/
def readTy : Ty → DFType
  | .fixed s i f => .fixed s i f
  | .float e f => .float e f
  | .rawbits b => .rawBits b
  | .wrap _ t => readTy t
  | .int _ w => .rawBits w

/-- The name of a port. -/
def readName (cs : List Char) : String :=
  let b : ByteArray := ⟨(cs.map fun c => UInt8.ofNat c.toNat).toArray⟩
  (String.fromUTF8? b).getD ""

def readSched1 : Sched1 → DKind
  | .neg => .neg
  | .cast => .cast

/-- There are no units for remainders (DFCIRToFIRRTLPass.cpp:683-700). -/
def readSched2 : Sched2 → Option DKind
  | .less => some .less
  | .lessEq => some .lessEq
  | .greater => some .greater
  | .greaterEq => some .greaterEq
  | .eq => some .eq
  | .notEq => some .notEq
  | .add => some .add
  | .sub => some .sub
  | .mul => some .mul
  | .div => some .div
  | .rem | .mod => none

def readComb2 : Comb2 → DKind
  | .and => .and
  | .or => .or
  | .xor => .xor
  | .cat => .cat

def readShift : Shift → DKind
  | .shl => .shl
  | .shr => .shr

/-- The operations the conversion handles.  Simplification: control operands of inputs and outputs and sources given with an output, which the builder
never makes, are not read. -/
def readStmt : Stmt → Option SStmt
  | .connect d s => some (.connect d s)
  | .scalarInput ty s => some (.op ⟨.scalarInput, readTy ty, .name (readName s), []⟩ 0)
  | .input ty s none => some (.op ⟨.input, readTy ty, .name (readName s), []⟩ 0)
  | .scalarOutput ty s none => some (.op ⟨.scalarOutput, readTy ty, .name (readName s), []⟩ 0)
  | .output ty s none none => some (.op ⟨.output, readTy ty, .name (readName s), []⟩ 0)
  | .constant ty v => some (.op ⟨.constant, readTy ty, .const v.width v.bits, []⟩ 0)
  | .latency l x t => some (.buffer l.sext x (readTy t))
  | .sched1 k l x t => some (.op ⟨readSched1 k, readTy t, .none, [x]⟩ l.sext)
  | .sched2 k l x y t => (readSched2 k).map fun k => .op ⟨k, readTy t, .none, [x, y]⟩ l.sext
  | .comb2 k x y t => some (.op ⟨readComb2 k, readTy t, .none, [x, y]⟩ 0)
  | .not x t => some (.op ⟨.not, readTy t, .none, [x]⟩ 0)
  | .offset x o t => some (.op ⟨.offset, readTy t, .ints [o.sext], [x]⟩ 0)
  | .mux c vs t => some (.op ⟨.mux, readTy t, .none, c :: vs⟩ 0)
  | .bits x l r t => some (.op ⟨.bits, readTy t, .ints [l.sext, r.sext], [x]⟩ 0)
  | .shift k x n t => some (.op ⟨readShift k, readTy t, .ints [n.sext], [x]⟩ 0)
  | _ => none

/-- The operations that define values. -/
def sVals (ss : List SStmt) : List SStmt :=
  ss.filter fun s => match s with
    | .connect _ _ => false
    | _ => true

/-- `Utils::findConnect`: the source of the first connection to value `d`. -/
def sConnected (ss : List SStmt) (d : Nat) : Option Nat :=
  ss.findSome? fun s => match s with
    | .connect d' src => if d' = d then some src else none
    | _ => none

/-- Kinds, types and attributes of the values.  (What stands for a buffer is not looked at by the conversion, `cellOf` and `hwOpOf` take buffers from the
program, but for its type.) -/
def sOps (ss : List SStmt) : List OpInfo :=
  (sVals ss).map fun s => match s with
    | .op o _ => o
    | .buffer _ x ty => ⟨.cast, ty, .none, [x]⟩
    | .connect _ _ => ⟨.cast, .rawBits 0, .none, []⟩

/-- The definitions of the values. -/
def sProg (ss : List SStmt) : Prog where
  size := (sVals ss).length
  defn := fun v => match (sVals ss)[v]? with
    | some (.buffer n x _) => .latency x n
    | some (.op o _) => match o.kind with
      | .input => .stream
      | .scalarInput => .scalar
      | .constant => .const
      | .output | .scalarOutput => .output (sConnected ss v)
      | .offset => match o.operands, o.attr with
        | [s], .ints [k] => .offset s k
        | _, _ => .erased
      | _ => .node o.operands
    | _ => .erased

/-- `getPosLatency` (DFCIROpInterfaces.td:81-91). -/
def sLat (ss : List SStmt) (v : Nat) : Int :=
  match (sVals ss)[v]? with
  | some (.op _ l) => max 0 l
  | _ => 0

/-- The circuit of a block, converted in block order. -/
def sCircuit (ss : List SStmt) : Nat → Cell := circuitOf (sOps ss) (sProg ss) (sLat ss) (List.range (sProg ss).size)

/-- A DFCIR text, parsed and converted to FIRRTL: the cells and their number. -/
def convertText (pick : IntAttr → IntAttr → IntAttr) (txt : List Char) : Option ((Nat → Cell) × Nat) :=
  match parse pick txt with
  | none => none
  | some f => (f.body.mapM readStmt).map fun ss => (sCircuit ss, (sProg ss).size)

end Verif.Sdf
