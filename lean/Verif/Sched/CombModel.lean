import Verif.Sched.Model
/-
Model of the combinational pipelining pass (/repo/src/model/dfcir):
  lib/dfcir/passes/DFCIRCombPipelinePass.cpp (runOnOperation),
  lib/dfcir/passes/DFCIRPipelineUtils.cpp (CombGraph).

The kernel body is the same list of operations as for the other schedulers (Sched/Model.lean); graph nodes are named by
their operation number instead of by a consecutive number (both follow block order).
-/
namespace Verif.Sched
open Verif.Dfcxx (Fault)

/-- `CombGraph::findNearestNodeValue` followed by `findNode` and the use of the node found
(DFCIRPipelineUtils.cpp:13-21, 66-67, 94-98).  On the destination of a connection the loop never ends (the iterator is
not advanced; a C++ program may assume this does not happen); a value defined by an offset has no node, and the null
pointer is dereferenced. -/
def combSrc (P : Prog) (v : Nat) : Except Fault Nat :=
  match P.defn v with
  | .output (some _) => .error .ub
  | .offset _ _ | .latency _ _ | .erased => .error .ub
  | _ => .ok v

/-- Channels for a list of operands starting at index `j`. -/
def combArgs (P : Prog) (i : Nat) : Nat → List Nat → Except Fault (List Chan)
  | _, [] => .ok []
  | j, v :: vs => match combSrc P v with
    | .error f => .error f
    | .ok x => match combArgs P i (j + 1) vs with
      | .error f => .error f
      | .ok cs => .ok (⟨x, i, wrap8 j, 0⟩ :: cs)

/-- Channels created for operation `i` (`CombGraph::process`, DFCIRPipelineUtils.cpp:60-106). -/
def combInChans (P : Prog) (i : Nat) : Except Fault (List Chan) :=
  match P.defn i with
  | .output (some s) => match combSrc P s with
    | .error f => .error f
    | .ok x => .ok [⟨x, i, -0 - 1, 0⟩]
  | .node args => combArgs P i 0 args
  | _ => .ok []

/-- All channels, in creation order (`constructFrom`, DFCIRGraph.h:129-141). -/
def combChannels (P : Prog) : List Nat → Except Fault (List Chan)
  | [] => .ok []
  | i :: is => match combInChans P i with
    | .error f => .error f
    | .ok cs => match combChannels P is with
      | .error f => .error f
      | .ok ds => .ok (cs ++ ds)

/-- `nodeLayers` and `maxLayerId`. -/
structure LayerState where
  layer : Nat → Nat
  maxLayer : Nat

/-- Inner loop of `divideIntoLayers` (lines 131-137): the target of a channel gets at least layer `l`. -/
def layerChan (l : Nat) (f : Nat → Nat) (c : Chan) : Nat → Nat :=
  if f c.tgt < l then fun n => if n = c.tgt then l else f n else f

/-- Outer loop of `divideIntoLayers` (lines 122-138). -/
def layerNode (cs : List Chan) (st : LayerState) (n : Nat) : LayerState :=
  let outs := cs.filter (fun c => c.src = n)
  let newLayer := st.layer n + 1
  { layer := outs.foldl (layerChan newLayer) st.layer
    maxLayer := if outs ≠ [] ∧ st.maxLayer < newLayer then newLayer else st.maxLayer }

/-- `divideIntoLayers`, first loop (lines 113-138). -/
def divideIntoLayers (P : Prog) (cs : List Chan) : LayerState :=
  (List.range P.size).foldl (layerNode cs) ⟨fun _ => 0, 0⟩

/-- Single-precision arithmetic as far as the pass uses it.  Nothing is assumed about rounding here. -/
structure FloatArith where
  F : Type
  ofNat : Nat → F
  add : F → F → F
  sub : F → F → F
  div : F → F → F
  gt : F → F → Bool
  eps : F

/-- Node weight (lines 35, 53, 89): 0 for inputs, outputs and constants, 1 for everything else. -/
def Def.weight : Def → Nat
  | .node _ => 1
  | _ => 0

/-- Layer weights (lines 140-150): the largest weight of a node of the layer.  All weights are 0 or 1, both exact in
single precision, so the maximum is taken before conversion. -/
def layerWeights (P : Prog) (st : LayerState) : List Nat :=
  (List.range (st.maxLayer + 1)).map fun l =>
    ((List.range P.size).filter fun n => st.layer n = l ∧ (P.defn n).isNode).foldl
      (fun m n => max m (P.defn n).weight) 0

/-- Main loop of `divideIntoCascades` (lines 174-202) and the filling of the remaining layers (lines 204-209).
`i`: layer number, `left`: `leftCascades`, `rest`: weights of the layers from `i` on.  Returns the cascades of the layers
from `i` on. -/
def cascadeLoop (A : FloatArith) (stages : Nat) :
    (i left : Nat) → (latSum latAvg currSum : A.F) → (curr : Nat) → (rest : List A.F) → Except Fault (List Nat)
  | _, _, _, _, _, _, [] => .ok []
  | i, left, latSum, latAvg, currSum, curr, w :: ws =>
    if 1 < left then
      let oldSum := currSum
      let newSum := A.add currSum w
      if A.gt (A.sub latAvg newSum) A.eps then
        match cascadeLoop A stages (i + 1) left latSum latAvg newSum curr ws with
        | .error f => .error f
        | .ok cs => .ok (curr :: cs)
      else if A.gt (A.add (A.sub (A.sub newSum latAvg) latAvg) oldSum) A.eps then
        if i = 0 then .error .assertFail
        else
          let latSum' := A.sub latSum oldSum
          match cascadeLoop A stages (i + 1) (left - 1) latSum' (A.div latSum' (A.ofNat (left - 1))) w (curr + 1) ws with
          | .error f => .error f
          | .ok cs => .ok ((curr + 1) :: cs)
      else
        let latSum' := A.sub latSum newSum
        match cascadeLoop A stages (i + 1) (left - 1) latSum' (A.div latSum' (A.ofNat (left - 1))) (A.ofNat 0) (curr + 1) ws with
        | .error f => .error f
        | .ok cs => .ok (curr :: cs)
    else .ok (List.replicate (ws.length + 1) (stages - 1))

/-- `divideIntoCascades` (lines 153-215).  The last layer always ends up in the last cascade (lines 210-214:
`i == layerCount` and `leftCascades > 0` always hold there). -/
def divideIntoCascades (A : FloatArith) (stages : Nat) (weights : List Nat) : Except Fault (List Nat) :=
  if stages = 0 then .error .assertFail
  else
    let ws := weights.map A.ofNat
    let latSum := ws.foldl A.add (A.ofNat 0)
    match cascadeLoop A stages 0 stages latSum (A.div latSum (A.ofNat stages)) (A.ofNat 0) 0 ws with
    | .error f => .error f
    | .ok cs => .ok (cs.set (weights.length - 1) (stages - 1))

/-- `calculateFIFOs` (lines 217-262); the difference of the 64-bit cascade numbers is converted to `int32_t`;
`++delta` (line 252) overflows at 2^31 - 1 (wrapping stands for undefined behaviour; the theorems ask for fewer than 2^31 stages). -/
def calculateFIFOs (P : Prog) (chans : List Chan) (layer : Nat → Nat) (cascades : List Nat) : List (Chan × Int) :=
  chans.filterMap fun c =>
    let d := wrap32 ((cascades.getD (layer c.tgt) 0 : Int) - (cascades.getD (layer c.src) 0 : Int))
    let delta := if layer c.tgt = cascades.length - 1 then wrap32 (d + 1) else d
    if delta ≠ 0 ∧ (P.defn c.src).isConstantInput = false then some (c, delta) else none

/-- Everything up to the insertion of the buffers (DFCIRCombPipelinePass.cpp:33-51): the buffer map. -/
def combBuffers (A : FloatArith) (stages : Nat) (P : Prog) : Except Fault (List (Chan × Int)) :=
  match combChannels P (List.range P.size) with
  | .error f => .error f
  | .ok cs =>
    let st := divideIntoLayers P cs
    match divideIntoCascades A stages (layerWeights P st) with
    | .error f => .error f
    | .ok casc => .ok (calculateFIFOs P cs st.layer casc)

/-- `DFCIRCombPipelinePass::runOnOperation` (lines 29-55): `order` is the iteration order of the buffer map. -/
def combPipeline (A : FloatArith) (stages : Nat) (order : List (Chan × Int) → List (Chan × Int)) (P : Prog) :
    Except Fault Prog :=
  if stages = 0 then .ok P
  else match combBuffers A stages P with
    | .error f => .error f
    | .ok bs => insertBuffers P (order bs)

end Verif.Sched
