import Verif.Sched.Model
import Mathlib.Data.Rat.Floor
/-
Model of the linear-programming scheduler:
  lib/dfcir/passes/DFCIRLinearSchedulerPass.cpp, lib/dfcir/passes/DFCIRLPUtils.cpp (in /repo/src/model/dfcir).
Simplification: coefficients and solver answers are exact rationals instead of doubles; lp_solve itself is not
modelled, its answer is a parameter.
-/
namespace Verif.Sched
open Verif.Dfcxx (Fault)

/-- `OpType` (DFCIRLPUtils.h:20-24). -/
inductive Rel where
  | le | ge | eq
  deriving DecidableEq, Repr

/-- `LPConstraint` (DFCIRLPUtils.h:50-65): coefficients paired with their variables. -/
structure LpCons where
  terms : List (Nat × ℚ)
  op    : Rel
  rhs   : ℚ

/-- Members of the pass and of `LPProblem` that matter: `currentCol`, `constraints`, `nodeMap`, `bufMap` and the
`deltaIDs` array. -/
structure LpState where
  col     : Nat
  cons    : List LpCons
  nodeMap : Nat → Nat
  bufMap  : List (Chan × Nat)
  deltas  : List Nat

/-- `LPProblem::LPProblem` (DFCIRLPUtils.cpp:94): columns start at 1. -/
def LpState.init : LpState := ⟨1, [], fun _ => 0, [], []⟩

/-- `addConstraint` (DFCIRLPUtils.cpp:41-44). -/
def LpState.add (st : LpState) (c : LpCons) : LpState := { st with cons := st.cons ++ [c] }

/-- `synchronizeInput` (DFCIRLinearSchedulerPass.cpp:43-51). -/
def synchronizeInput (st : LpState) (n : Nat) : LpState :=
  st.add ⟨[(st.nodeMap n, 1)], .eq, 0⟩

/-- `addLatencyConstraint` (lines 53-64). -/
def addLatencyConstraint (lat : Nat → Int) (st : LpState) (c : Chan) : LpState :=
  st.add ⟨[(st.nodeMap c.tgt, 1), (st.nodeMap c.src, -1)], .ge, ((lat c.src + c.off : Int) : ℚ)⟩

/-- `addDeltaConstraint` (lines 66-80) and the recording of the new variable (lines 124-125). -/
def addDeltaConstraint (st : LpState) (c : Chan) : LpState :=
  { st.add ⟨[(st.col, 1), (st.nodeMap c.tgt, -1), (st.nodeMap c.src, 1)], .eq, 0⟩ with
    col := st.col + 1, deltas := st.deltas ++ [st.col] }

/-- `addBufferConstraint` (lines 82-102). -/
def addBufferConstraint (lat : Nat → Int) (st : LpState) (c : Chan) : LpState :=
  { (st.add ⟨[(st.col, 1), (st.nodeMap c.tgt, -1), (st.nodeMap c.src, 1)], .eq, -1 * ((lat c.src + c.off : Int) : ℚ)⟩).add
      ⟨[(st.col, 1)], .ge, 0⟩ with
    col := st.col + 1, bufMap := st.bufMap ++ [(c, st.col)] }

/-- First loop (lines 109-116). -/
def lpNode (P : Prog) (st : LpState) (n : Nat) : LpState :=
  let st' := { st with nodeMap := fun m => if m = n then st.col else st.nodeMap m, col := st.col + 1 }
  if (P.defn n).isInput then synchronizeInput st' n else st'

/-- Body of the second loop (lines 121-128). -/
def lpChan (lat : Nat → Int) (st : LpState) (c : Chan) : LpState :=
  addBufferConstraint lat (addDeltaConstraint (addLatencyConstraint lat st c) c) c

/-- Nodes of the scheduling graph, in creation order. -/
def nodesOf (P : Prog) : List Nat := (List.range P.size).filter fun n => (P.defn n).isNode

/-- The problem handed to the solver (lines 107-135). -/
def lpBuild (P : Prog) (lat : Nat → Int) : LpState :=
  (channels P).foldl (lpChan lat) ((nodesOf P).foldl (lpNode P) .init)

/-- What `lp_solve` answers (lines 135-139): a point, or one of the failure statuses. -/
inductive Outcome where
  | solved (x : Nat → ℚ)
  | failed

/-- Conversion of a double to `int32_t`: towards zero (range not modelled). -/
def truncQ (q : ℚ) : Int := if 0 ≤ q then ⌊q⌋ else ⌈q⌉

/-- Buffers read off the answer (lines 136-156). -/
def lpBuffers (P : Prog) (st : LpState) : Outcome → List (Chan × Int)
  | .failed => []
  | .solved x => st.bufMap.filterMap fun p =>
      let latency := truncQ (x p.2)
      if latency ≠ 0 ∧ (P.defn p.1.src).isConstantInput = false then some (p.1, latency) else none

/-- Result of the pass: the rewritten kernel and the latency it reports. -/
structure PassResult where
  prog    : Prog
  latency : Int

/-- `runOnOperation` (lines 170-194) after `applyConfig`; the reported latency is the constant of line 161.
`perm` is the iteration order of the buffer map. -/
def lpRun (P : Prog) (lat : Nat → Int) (o : Outcome) (perm : List (Chan × Int) → List (Chan × Int)) :
    Except Fault PassResult :=
  match applySchedule P (perm (lpBuffers P (lpBuild P lat) o)) with
  | .error f => .error f
  | .ok P' => .ok ⟨P', 0⟩

end Verif.Sched
