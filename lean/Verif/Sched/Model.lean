import Verif.Dfcxx.Basic
/-
Model of the scheduling passes of the DFCIR backend (/repo/src/model/dfcir):
  include/dfcir/passes/DFCIRGraph.h (insertBuffer, insertBuffers),
  lib/dfcir/passes/DFCIRScheduleUtils.cpp (graph construction, applyConfig),
  lib/dfcir/passes/DFCIRASAPSchedulerPass.cpp, DFCIRLinearSchedulerPass.cpp, DFCIRLPUtils.cpp,
  lib/dfcir/passes/DFCIRPassesUtils.cpp (eraseOffsets).

A kernel body is a list of operations, numbered in block order; every operation has one result, so operations and
values share the numbers.  Simplifications: the `dfcir.connect` whose destination is an output is kept in the
output's own definition (the DFCxx front end emits it directly after the output, dfcir_builder.cpp:346-351, and
the pass finds it by destination, DFCIRGraph.h:132-134); int32_t additions are taken without overflow.
-/
namespace Verif.Sched
open Verif.Dfcxx (Fault)

/-- One operation of the kernel body.  `stream`: `dfcir.input`; `scalar`: `dfcir.scalarInput`; `const`:
`dfcir.constant`; `output src`: `dfcir.output`/`dfcir.scalarOutput` and the source connected to it; `node`: every
other computing operation (arithmetic, logic, mux, cast, shift, bits, cat) with its operands; `offset`:
`dfcir.offset`; `latency`: `dfcir.latency`; `erased`: an operation removed from the block. -/
inductive Def where
  | stream
  | scalar
  | const
  | output (src : Option Nat)
  | node (args : List Nat)
  | offset (src : Nat) (k : Int)
  | latency (src : Nat) (n : Int)
  | erased
  deriving DecidableEq, Repr

/-- Operand values of an operation. -/
def Def.refs : Def → List Nat
  | .output (some s) => [s]
  | .node args => args
  | .offset s _ => [s]
  | .latency s _ => [s]
  | _ => []

/-- `ConstantInputInterface` (DFCIROperations.td:38-39, 102). -/
def Def.isConstantInput : Def → Bool
  | .scalar | .const => true
  | _ => false

/-- `InputOpInterface` (DFCIROperations.td:38, 70). -/
def Def.isInput : Def → Bool
  | .stream | .scalar => true
  | _ => false

/-- `OutputOpInterface` (DFCIROperations.td:54, 86). -/
def Def.isOutput : Def → Bool
  | .output _ => true
  | _ => false

/-- Operations that become graph nodes (DFCIRScheduleUtils.cpp:71-157). -/
def Def.isNode : Def → Bool
  | .stream | .scalar | .const | .output _ | .node _ => true
  | _ => false

structure Prog where
  size : Nat
  defn : Nat → Def

def Prog.set (P : Prog) (i : Nat) (d : Def) : Prog := { P with defn := fun j => if j = i then d else P.defn j }

/-- `SchedChannel` (DFCIRScheduleUtils.h:39-55, DFCIRGraph.h:60-82). -/
structure Chan where
  src : Nat
  tgt : Nat
  valInd : Int
  off : Int
  deriving DecidableEq, Repr

/-- Conversion to `int8_t`. -/
def wrap8 (i : Nat) : Int := (BitVec.ofNat 8 i).toInt
/-- Conversion to `int32_t`. -/
def wrap32 (k : Int) : Int := (BitVec.ofInt 32 k).toInt

/-- `findNearestNodeValue` (DFCIRScheduleUtils.cpp:45-69): follow offsets and connected outputs, summing offsets.
`fuel` bounds the loop (operands precede their users, so the value's own number suffices). -/
def nearest (P : Prog) : (fuel : Nat) → Nat → Int → Nat × Int
  | 0, v, acc => (v, acc)
  | fuel + 1, v, acc => match P.defn v with
    | .offset s k => nearest P fuel s (acc + wrap32 k)
    | .output (some s) => nearest P fuel s acc
    | _ => (v, acc)

def nearestOf (P : Prog) (v : Nat) : Nat × Int := nearest P (v + 1) v 0

/-- Input channels of operation `i` (DFCIRScheduleUtils.cpp:103-124 for outputs, 130-150 for the others). -/
def inChans (P : Prog) (i : Nat) : List Chan :=
  match P.defn i with
  | .output (some s) => let x := nearestOf P s; [⟨x.1, i, -0 - 1, x.2⟩]
  | .node args => args.mapIdx fun j v => let x := nearestOf P v; ⟨x.1, i, wrap8 j, x.2⟩
  | _ => []

/-- All channels, in creation order. -/
def channels (P : Prog) : List Chan := (List.range P.size).flatMap (inChans P)

/-- `node->outputs`. -/
def outChans (P : Prog) (n : Nat) : List Chan := (channels P).filter (fun c => c.src = n)

/-! ### ASAP -/

/-- Start times (`Latencies`, a map with default 0) and the running maximum over outputs. -/
structure AsapState where
  time : Nat → Int
  maxLatency : Int

/-- Body of the inner loop (DFCIRASAPSchedulerPass.cpp:44-54). -/
def asapChan (P : Prog) (lat : Nat → Int) (st : AsapState) (c : Chan) : AsapState :=
  let l := st.time c.src + lat c.src + c.off
  { time := if l > st.time c.tgt then fun n => if n = c.tgt then l else st.time n else st.time
    maxLatency := if (P.defn c.tgt).isOutput ∧ l > st.maxLatency then l else st.maxLatency }

/-- Outer loop (lines 41-55). -/
def asapNode (P : Prog) (lat : Nat → Int) (st : AsapState) (n : Nat) : AsapState :=
  (outChans P n).foldl (asapChan P lat) st

def asap (P : Prog) (lat : Nat → Int) : AsapState :=
  (List.range P.size).foldl (asapNode P lat) ⟨fun _ => 0, 0⟩

/-- Buffer lengths for given start times (lines 59-70): the difference, unless it is 0 or the source is a constant
input. -/
def buffersFor (P : Prog) (lat : Nat → Int) (T : Nat → Int) : List (Chan × Int) :=
  (channels P).filterMap fun c =>
    let delta := T c.tgt - (T c.src + lat c.src + c.off)
    if delta ≠ 0 ∧ (P.defn c.src).isConstantInput = false then some (c, delta) else none

/-! ### Buffer insertion and offset removal -/

/-- `insertBuffer` (DFCIRGraph.h:163-196).  The new `dfcir.latency` gets a fresh number. -/
def insertBuffer (P : Prog) (c : Chan) (b : Int) : Except Fault Prog :=
  if b ≤ 0 then .error .assertFail
  else if 0 ≤ c.valInd then
    match P.defn c.tgt with
    | .node args => match args[c.valInd.toNat]? with
      | some v => .ok { size := P.size + 1
                        defn := ((P.set c.tgt (.node (args.set c.valInd.toNat P.size))).set P.size (.latency v b)).defn }
      | none => .error .ub
    | _ => .error .ub
  else if (-(c.valInd + 1)).toNat ≠ 0 then .error .ub      -- `getResult(resId)` out of range
  else match P.defn c.tgt with
    | .output (some s) => .ok { size := P.size + 1
                                defn := ((P.set c.tgt (.output (some P.size))).set P.size (.latency s b)).defn }
    | _ => .error .assertFail

/-- `insertBuffers` (DFCIRGraph.h:198-203), in the iteration order of the map. -/
def insertBuffers (P : Prog) : List (Chan × Int) → Except Fault Prog
  | [] => .ok P
  | (c, b) :: rest => match insertBuffer P c b with
    | .error f => .error f
    | .ok P' => insertBuffers P' rest

/-- Replace operand `p` by `s`. -/
def Def.subst (p s : Nat) : Def → Def
  | .output (some v) => .output (some (if v = p then s else v))
  | .node args => .node (args.map fun v => if v = p then s else v)
  | .offset v k => .offset (if v = p then s else v) k
  | .latency v k => .latency (if v = p then s else v) k
  | d => d

/-- One callback of `eraseOffsets` (DFCIRPassesUtils.cpp:18-25). -/
def eraseOne (P : Prog) (p : Nat) : Prog :=
  match P.defn p with
  | .offset s _ => { size := P.size, defn := fun j => if j = p then .erased else (P.defn j).subst p s }
  | _ => P

/-- `eraseOffsets` (DFCIRPassesUtils.cpp:17-26): offsets in block order.  The inserted latency operations are not
offsets, so walking the original numbers visits all of them. -/
def eraseOffsets (n : Nat) (P : Prog) : Prog := (List.range n).foldl eraseOne P

/-- `DFCIRASAPSchedulerPass::runOnOperation` after graph construction and `applyConfig`; `bs` is the buffer map in
its iteration order. -/
def applySchedule (P : Prog) (bs : List (Chan × Int)) : Except Fault Prog :=
  match insertBuffers P bs with
  | .error f => .error f
  | .ok P' => .ok (eraseOffsets P.size P')

end Verif.Sched
