import Verif.Cli.Modes
import Verif.Flow.Compiled
import Verif.Flow.Verify
import Verif.Text.Api
import Verif.Sdf.Props
import Verif.Dot.Model
/-
The tool as a whole: the stages modelled elsewhere put together, as `hlsMain` runs them on the kernel `start()` returns
(/repo/src/main.cpp:46-53, /repo/src/model/dfcxx/lib/dfcxx/kernel.cpp:186-220, /repo/src/model/dfcxx/lib/dfcxx/dfcir_processor.cpp:57-125).
-/
namespace Verif.Whole
open Verif.Dfcxx Verif.Flow Verif.Sched Verif.Driver
open Verif.Sdf (posLat schedLines valsOf fullOrder schedText)

/-- MLIR modules, by the stage that made them.  `C`: what CIRCT's passes make of them. -/
inductive Mod (C : Type) where
  /-- What `DFCIRBuilder::buildModule` returns. -/
  | dfcir (stmts : List DStmt)
  /-- After a scheduling pass: kinds, types and attributes are those of `stmts`, `bs` are the buffers inserted, in this order, `X` says which operations
  there are now and what they read, `att` are the latency attributes (-1: not set). -/
  | scheduled (stmts : List DStmt) (bs : List (Sched.Chan × Int)) (X : Prog) (att : Nat → Int)
  /-- After `DFCIRToFIRRTLPass`. -/
  | firrtl (cells : Nat → Cell) (size : Nat)
  /-- Later. -/
  | later (c : C)

/-- What the model of the stages leaves open: the enumeration orders of hash tables, the answer of the LP solver, single-precision arithmetic, the
time, the texts that are not modelled, CIRCT, and the file system. -/
structure Env (C : Type) where
  graph : World → KGraph → TopSort.Graph Nat
  dotNodes : World → KGraph → List Nat
  bufOrder : List (Sched.Chan × Int) → List (Sched.Chan × Int)
  solve : LpState → Sched.Outcome
  arith : FloatArith
  time : String
  printFirrtl : (Nat → Cell) → Nat → String
  printLater : C → String
  stubs : (Nat → Cell) → Nat → String
  circt : List (Mod C → Option (Mod C))
  exportVerilog : Mod C → Option String
  firrtlOK : (Nat → Cell) → Nat → Bool
  laterOK : C → Bool
  canOpen : String → Bool
  /-- The latency configuration files that can be read. -/
  config : String → Option Config.JsonDoc

variable {C : Type}

/-- `Kernel::compile` up to the module (kernel.cpp:189-190): topological sorting and `DFCIRBuilder::buildModule` (dfcir_builder.cpp:18-50).  A failed
assertion of `topSort` stops the program. -/
def build (E : Env C) (w : World) (g : KGraph) : Except Fault (Mod C) :=
  match TopSort.topSort (E.graph w g) with
  | .ok order => match buildBody w.view order with
    | .ok prog => .ok (.dfcir prog)
    | .error f => .error f
  | _ => .error .assertFail

/-- The ASAP pass (DFCIRASAPSchedulerPass.cpp). -/
def asapPass (E : Env C) (file : Option Config.JsonDoc) : Mod C → Option (Mod C)
  | .dfcir s =>
    let lat := latOf file (opsOf s)
    let bs := E.bufOrder (buffersFor (progOf s) lat (asap (progOf s) lat).time)
    match applySchedule (progOf s) bs with
    | .ok X => some (.scheduled s bs X lat)
    | .error _ => none
  | _ => none

/-- The linear programming pass (DFCIRLinearSchedulerPass.cpp). -/
def linearPass (E : Env C) (file : Option Config.JsonDoc) : Mod C → Option (Mod C)
  | .dfcir s =>
    let lat := latOf file (opsOf s)
    let o := E.solve (lpBuild (progOf s) lat)
    match lpRun (progOf s) lat o E.bufOrder with
    | .ok r => some (.scheduled s (E.bufOrder (lpBuffers (progOf s) (lpBuild (progOf s) lat) o)) r.prog lat)
    | .error _ => none
  | _ => none

/-- The buffers the combinational pipelining pass inserts. -/
def combInserted (E : Env C) (stages : Nat) (P : Prog) : List (Sched.Chan × Int) :=
  if stages = 0 then [] else match combBuffers E.arith stages P with
    | .ok bs => E.bufOrder bs
    | .error _ => []

/-- The combinational pipelining pass (DFCIRCombPipelinePass.cpp): it sets no latencies: the attribute stays -1, and counts as 0
(`getPosLatency`, DFCIROpInterfaces.td). -/
def combPass (E : Env C) (stages : Nat) : Mod C → Option (Mod C)
  | .dfcir s =>
    match combPipeline E.arith stages E.bufOrder (progOf s) with
    | .ok X => some (.scheduled s (combInserted E stages (progOf s)) X fun _ => -1)
    | .error _ => none
  | _ => none

/-- Is nothing left of DFCIR?  After the conversion every operation of the dialect is illegal (DFCIRToFIRRTLPass.cpp:1074-1076); operations without a
conversion pattern, `dfcir.offset` among them, make it fail. -/
def converted (X : Prog) (cells : Nat → Cell) : Bool :=
  (List.range X.size).all fun v => decide (cells v ≠ .gone) || decide (X.defn v = .erased)

/-- The order of the operations in the scheduled block: that of the lines (Verif/Sdf/Model.lean).  Values that are no longer there come last; the
conversion does not look at them. -/
def schedBlock (s : List DStmt) (bs : List (Sched.Chan × Int)) (X : Prog) : List Nat := fullOrder X (valsOf (schedLines s bs X))

/-- What the conversion makes of a scheduled block. -/
def design (s : List DStmt) (bs : List (Sched.Chan × Int)) (X : Prog) (att : Nat → Int) : Nat → Cell := circuitOf (opsOf s) X (posLat att) (schedBlock s bs X)

/-- `DFCIRToFIRRTLPass`. -/
def firrtlPass : Mod C → Option (Mod C)
  | .scheduled s bs X att =>
    let cells := design s bs X att
    if converted X cells then some (.firrtl cells X.size) else none
  | _ => none

/-- The stages for the kernel `g` named `name` and the latency configuration file `file`.  In the passes a fault (a failed assertion, undefined
behaviour) counts as failure; where a theorem says that the exit code is 0, there are no faults. -/
def backend (E : Env C) (name : String) (w : World) (g : KGraph) (file : Option Config.JsonDoc) : Backend (Mod C) where
  check := w.check g
  build := build E w g
  dot := Dot.dotText w name E.time (E.dotNodes w g)
  print := fun m => match m with
    | .dfcir s => String.ofList ((Text.printed name s).getD [])
    | .scheduled s bs X att => String.ofList ((schedText name s bs X att).getD [])
    | .firrtl cells size => E.printFirrtl cells size
    | .later c => E.printLater c
  linear := linearPass E file
  asap := asapPass E file
  comb := combPass E
  toFIRRTL := firrtlPass
  stubs := fun m => match m with
    | .firrtl cells size => E.stubs cells size
    | _ => ""
  circt := E.circt
  exportVerilog := E.exportVerilog
  verify := fun m => match m with
    | .dfcir s => verifyBlock s
    | .scheduled s _ X _ => (List.range X.size).all (verifyValue s X)
    | .firrtl cells size => E.firrtlOK cells size
    | .later c => E.laterOK c
  canOpen := E.canOpen

/-- The latency configuration a command line names (options.h:330-337): no name, or a file that cannot be read, is no configuration. -/
def latencyFile (E : Env C) (path : String) : Option Config.JsonDoc := if path = "" then none else E.config path

/-- The program (main.cpp:60-85) of a kernel.  `boolCast`, `cfg`: how flags are read and the section "sim" of config.json (Verif/Cli/Model.lean);
`sim`: the simulator. -/
def tool (E : Env C) (boolCast : String → Option Bool) (cfg : Cli.SimConfig) (sim : String → String → Files → Except Fault (Nat × Files)) (name : String)
    (w : World) (g : KGraph) (args : List String) (fs : Files) : Except Fault (Nat × Files) :=
  Cli.program boolCast cfg (fun c => backend E name w g (latencyFile E c)) sim args fs

end Verif.Whole
