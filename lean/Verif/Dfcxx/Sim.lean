import Verif.Dfcxx.Basic
/-
Model of the simulator's evaluation core: /repo/src/model/dfcxx/lib/dfcxx/simulator.cpp lines 48-238.

The simulator sees a node only through its kind, data, type, name, constant value and the sources of its
input channels, collected in `NodeV`.  Nodes are numbered; `V : Nat → NodeV` is the graph.
-/
namespace Verif.Dfcxx

/-- What kind of variable a node belongs to (`DFStream`, `DFScalar`, `DFConstant`). -/
inductive VarKind where
  | stream | scalar | const (v : Word)
  deriving DecidableEq, Repr

/-- View of a `Node` (node.h:59-73) together with its variable; `ins` lists, for each channel of
`node->inputs`, its source node and its `connect` flag. -/
structure NodeV where
  op   : OpType
  data : NodeData
  ty   : DFType
  kind : VarKind
  name : String
  ins  : List (Nat × Bool)
  deriving Repr

/-- Sources of the input channels. -/
def NodeV.srcs (n : NodeV) : List Nat := n.ins.map Prod.fst

/-- `RecordedValues` (unordered_map<Node*, SimValue>): `none` = no entry.  Reading a missing entry with
`operator[]` yields 0 and creates the entry; the created entry is visible only in the output dump and
only when the order is not topological, so it is not recorded here (reads of missing entries still give 0). -/
abbrev Vals := Nat → Option Word

def rd (vals : Vals) (n : Nat) : Word := (vals n).getD 0
def wr (vals : Vals) (n : Nat) (v : Word) : Vals := fun m => if m = n then some v else vals m

/-- The data of one tick: `inData.at(name)[ind]` (simulator.cpp:51); `at` may throw, the array access may be out of
range (see `SimIO.lean`). -/
abbrev TickIn := String → Except Fault Word

/-- Result of processing one node: a value, the `return false` path, or a fault. -/
inductive R where
  | val (v : Word)
  | unsupported
  | fault (f : Fault)
  deriving DecidableEq, Repr

def R.ofExcept : Except Fault Word → R
  | .ok v => .val v
  | .error f => .fault f

/-- `processOp` (simulator.cpp:188-194) with the function table of lines 198-221 and the functions of lines
48-186, as the value assigned to `vals[node]`.  `args` are the current values of the input sources.
A vector access past the end is undefined behaviour. -/
def processOp (F : FloatOps) (n : NodeV) (inp : TickIn) (args : List Word) : R :=
  match n.op with
  | .IN => R.ofExcept (inp n.name)             -- 48-53
  | .OUT => match args[0]? with               -- 55-61
      | some v => .val v
      | none => .fault .ub
  | .CONST => match n.kind with               -- 63-67
      | .const v => .val v
      | _ => .fault .ub
  | .MUX => match n.data with                 -- 69-74
      | .muxId m => match args[m]? with
          | some s => match args[(s + 1).toNat]? with   -- `muxedValue + 1` wraps in uint64_t
              | some v => .val v
              | none => .fault .ub
          | none => .fault .ub
      | _ => .fault .ub
  | .ADD | .SUB | .MUL | .DIV | .LESS | .LESSEQ | .GREATER | .GREATEREQ | .EQ | .NEQ =>  -- 97-135
      match simKind n.ty with
      | none => .unsupported
      | some k => match args[0]?, args[1]? with
          | some a, some b => match evalTyped F k n.op a b with
              | some r => R.ofExcept r
              | none => .unsupported
          | _, _ => .fault .ub
  | .AND | .OR | .XOR => match args[0]?, args[1]? with   -- 137-151
      | some a, some b => match evalBitwise n.op a b with
          | some v => .val v
          | none => .unsupported
      | _, _ => .fault .ub
  | .NOT => match args[0]? with               -- 153-157
      | some a => .val (~~~ a)
      | none => .fault .ub
  | .NEG => match simKind n.ty with           -- 159-174
      | none => .unsupported
      | some k => match args[0]? with
          | some a => R.ofExcept (evalNeg F k a)
          | none => .fault .ub
  | .SHL => match n.data, args[0]? with       -- 176-180
      | .bitShift k, some a => R.ofExcept (evalShl a k)
      | _, _ => .fault .ub
  | .SHR => match n.data, args[0]? with       -- 182-186
      | .bitShift k, some a => R.ofExcept (evalShr a k)
      | _, _ => .fault .ub
  | .NONE | .OFFSET | .CAST | .BITS | .CAT => .unsupported   -- 190-192: not in the table

/-- Outcome of one tick. -/
inductive SimOut where
  | done (vals : Vals)
  | failed                 -- `runSim` returns false
  | fault (f : Fault)

/-- `runSim` (simulator.cpp:225-238): nodes in the given order, one value table reused across ticks. -/
def runSim (F : FloatOps) (V : Nat → NodeV) : (order : List Nat) → Vals → TickIn → SimOut
  | [], vals, _ => .done vals
  | n :: rest, vals, inp =>
    match processOp F (V n) inp ((V n).srcs.map (rd vals)) with
    | .val v => runSim F V rest (wr vals n v) inp
    | .unsupported => .failed
    | .fault f => .fault f

/-- The loop over ticks inside `simulate` (simulator.cpp:329-343): the table `vals` is never cleared. -/
def runTicks (F : FloatOps) (V : Nat → NodeV) (order : List Nat) : Vals → List TickIn → Except Fault (Option (List Vals))
  | _, [] => .ok (some [])
  | vals, inp :: rest =>
    match runSim F V order vals inp with
    | .done vals' =>
      match runTicks F V order vals' rest with
      | .ok (some l) => .ok (some (vals' :: l))
      | .ok none => .ok none
      | .error f => .error f
    | .failed => .ok none
    | .fault f => .error f

end Verif.Dfcxx
