import Verif.Config.Model
/-
Model of the driver: what a run of the tool writes where, and its exit code.

Sources: /repo/src/main.cpp:46-60 (`hlsMain`, `simMain`), /repo/src/model/dfcxx/lib/dfcxx/kernel.cpp:186-236 (`Kernel::compile`,
`Kernel::simulate`), /repo/src/model/dfcxx/lib/dfcxx/dfcir_processor.cpp:22-125 (the dumper pass, `convertAndPrint`).

The stages themselves are parameters (`Backend`): the theorems hold for all of them.  Those written in this project are modelled
elsewhere (the DFCIR builder, the scheduling passes, the lowering, the stub generator, the DOT writer); CIRCT's are not modelled.

MLIR's pass manager is modelled by what it does here: passes run in the order in which they were added, each on the module the previous
one left; after each pass the module is verified (dfcir_processor.cpp never disables that); the first failure ends the run, and
`pm.run` reports it.
-/
namespace Verif.Driver
open Verif.Config Verif.Dfcxx

/-- `Scheduler` (typedefs.h:51-55). -/
inductive Scheduler where
  | linear | asap | combPipelining
  deriving DecidableEq, Repr

/-- The command line as `hlsMain` sees it: `DFOptionsConfig` (typedefs.h:88-99) and the paths by format number (options.h:197-275). -/
structure Options where
  scheduler : Scheduler
  stages : Nat
  paths : List String

/-- The stages.  `M` is the type of MLIR modules; `none`: the pass signals failure. -/
structure Backend (M : Type) where
  /-- `Kernel::check`. -/
  check : Bool
  /-- `DFCIRBuilder::buildModule`; it may stop the program. -/
  build : Except Fault M
  /-- `Kernel::compileDot`. -/
  dot : String
  /-- Printing a module. -/
  print : M → String
  /-- The three scheduling passes. -/
  linear : M → Option M
  asap : M → Option M
  comb : Nat → M → Option M
  /-- `DFCIRToFIRRTLPass`. -/
  toFIRRTL : M → Option M
  /-- `FIRRTLStubGeneratorPass`: it has no way to fail (FIRRTLStubsGeneratorPass.cpp:194-231). -/
  stubs : M → String
  /-- CIRCT's passes between FIRRTL and the export, in order (dfcir_processor.cpp:101-118). -/
  circt : List (M → Option M)
  /-- CIRCT's Verilog export. -/
  exportVerilog : M → Option String
  /-- MLIR's verifier. -/
  verify : M → Bool
  /-- Can the file be opened for writing? -/
  canOpen : String → Bool

/-- The files of the machine. -/
abbrev Files := String → Option String

def Files.put (fs : Files) (p s : String) : Files := fun q => if q = p then some s else fs q

/-- Write to the end of a file. -/
def Files.append (fs : Files) (p s : String) : Files := fs.put p ((fs p).getD "" ++ s)

/-- An entry of the pass manager. -/
inductive Pass (M : Type) where
  /-- A pass that changes the module. -/
  | transform (f : M → Option M)
  /-- A pass that writes to the file `p` and leaves the module alone. -/
  | write (p : String) (f : M → Option String)

variable {M : Type}

/-- One pass. -/
def Pass.run : Pass M → M → Files → Option (M) × Files
  | .transform f, m, fs => (f m, fs)
  | .write p f, m, fs => match f m with
    | some s => (some m, fs.append p s)
    | none => (none, fs)

/-- `pm.run`: `true` for success. -/
def runPasses (verify : M → Bool) : List (Pass M) → M → Files → Bool × Files
  | [], _, fs => (true, fs)
  | p :: ps, m, fs =>
    match p.run m fs with
    | (none, fs) => (false, fs)
    | (some m, fs) => if verify m then runPasses verify ps m fs else (false, fs)

/-- The switch on the scheduler (dfcir_processor.cpp:71-82). -/
def schedulerPass (B : Backend M) (o : Options) : Pass M :=
  match o.scheduler with
  | .linear => .transform B.linear
  | .asap => .transform B.asap
  | .combPipelining => .transform (B.comb o.stages)

/-- The stream of a format, if it is open. -/
def stream (ss : List (Option String)) (f : Format) : Option String := (ss[f.id]?).join

/-- The passes added when the stream is open. -/
def when (s : Option String) (f : String → List (Pass M)) : List (Pass M) :=
  match s with
  | some p => f p
  | none => []

/-- The passes `convertAndPrint` adds (dfcir_processor.cpp:71-120). -/
def passList (B : Backend M) (o : Options) (ss : List (Option String)) : List (Pass M) :=
  [schedulerPass B o]
  ++ when (stream ss .ScheduledDFCIR) (fun p => [.write p fun m => some (B.print m)])
  ++ [.transform B.toFIRRTL]
  ++ when (stream ss .FIRRTL) (fun p => [.write p fun m => some (B.print m)])
  ++ when (stream ss .SVLibrary) (fun p => [.write p fun m => some (B.stubs m)])
  ++ when (stream ss .SystemVerilog) (fun p => B.circt.map .transform ++ [.write p B.exportVerilog])

/-- `DFCIRProcessor::convertAndPrint` (dfcir_processor.cpp:57-125). -/
def convertAndPrint (B : Backend M) (o : Options) (ss : List (Option String)) (m : M) (fs : Files) : Bool × Files :=
  let fs := match stream ss .UnscheduledDFCIR with
    | some p => fs.append p (B.print m)
    | none => fs
  runPasses B.verify (passList B o ss) m fs

/-- Opening the output streams (kernel.cpp:193-201): an opened file is emptied.  The error code is not looked at; a stream that could not
be opened has no descriptor, and using or closing it fails an assertion of LLVM. -/
def openAll (B : Backend M) : List (Option String) → Files → Except Fault Files
  | [], fs => .ok fs
  | none :: ss, fs => openAll B ss fs
  | some p :: ss, fs => if B.canOpen p then openAll B ss (fs.put p "") else .error .assertFail

/-- `Kernel::compile` (kernel.cpp:186-220).  `compileDot` always returns `true`. -/
def compile (B : Backend M) (o : Options) (fs : Files) : Except Fault (Bool × Files) := do
  let m ← B.build
  let ss := openStreams o.paths
  let fs ← openAll B ss fs
  let fs := match stream ss .DOT with
    | some p => fs.append p B.dot
    | none => fs
  return convertAndPrint B o ss m fs

/-- `hlsMain` (main.cpp:46-53): the exit code and the files afterwards. -/
def hlsMain (B : Backend M) (o : Options) (fs : Files) : Except Fault (Nat × Files) :=
  if B.check = false then .ok (1, fs)
  else do
    let (ok, fs) ← compile B o fs
    return (if ok then 0 else 1, fs)

end Verif.Driver
