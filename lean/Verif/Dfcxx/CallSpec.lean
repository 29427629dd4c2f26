import Verif.Dfcxx.WorldSpec
import Verif.Dfcxx.SimSpec
/-
Specification of C60: the node every call of the API returns.
-/
namespace Verif.Dfcxx

/-- The variables an operator node reads. -/
def reads (l : List Nat) : List (Nat × Bool) := l.map fun a => (a, false)

/-- What a call creates, as the user sees it: the operator, its parameters, type, kind of variable, name and operands.  `none`: the call
creates no node of its own (operators on constants only, constants, casts to the same type, connections, instances). -/
def Cmd.result (w : World) : Cmd → Option NodeV
  | .input scalar name ty => some ⟨.IN, .none, ty, if scalar then .scalar else .stream, name, []⟩
  | .output scalar name ty => some ⟨.OUT, .none, ty, if scalar then .scalar else .stream, name, []⟩
  | .newVar scalar ty => some ⟨.NONE, .none, ty, if scalar then .scalar else .stream, "", []⟩
  | .bin op a b =>
    if (w.view a).kind.isConst = true ∧ (w.view b).kind.isConst = true then none
    else some ⟨op, .none, if op.isComparison then .fixed false 1 0 else (w.view a).ty, .stream, "", reads [a, b]⟩
  | .un op a => if (w.view a).kind.isConst = true then none else some ⟨op, .none, (w.view a).ty, .stream, "", reads [a]⟩
  | .shift left a k =>
    if (w.view a).kind.isConst = true then none
    else some ⟨if left then .SHL else .SHR, .bitShift (k % 256), (w.view a).ty, .stream, "", reads [a]⟩
  | .bits a i j =>
    some ⟨.BITS, .bitsRange (max (i % 65536) (j % 65536)) (min (i % 65536) (j % 65536)),
      .rawBits ((max (i % 65536) (j % 65536) - min (i % 65536) (j % 65536) + 1) % 65536), .stream, "", reads [a]⟩
  | .cat a b => some ⟨.CAT, .none, .rawBits (((w.view a).ty.totalBits + (w.view b).ty.totalBits) % 65536), .stream, "", reads [a, b]⟩
  | .cast a ty same => if same then none else some ⟨.CAST, .none, ty, .stream, "", reads [a]⟩
  | .mux ctrl args => args.head?.map fun a0 => ⟨.MUX, .muxId 0, (w.view a0).ty, .stream, "", reads (ctrl :: args)⟩
  | .offset a o => some ⟨.OFFSET, .offset o, (w.view a).ty, .stream, "", reads [a]⟩
  | _ => none

/-- The kernel a new variable belongs to: that of the first operand that is not a constant, for operators written as methods or operators of
a variable; the kernel under construction, for what is called on the kernel itself (inputs, outputs, variables, multiplexers, offsets). -/
def Cmd.home (w : World) : Cmd → Nat
  | .bin _ a b => if (w.view a).kind.isConst = true then (w.node b).kern else (w.node a).kern
  | .un _ a | .shift _ a _ | .bits a _ _ | .cat a _ | .cast a _ _ => (w.node a).kern
  | _ => w.cur

/-- `v` is the value of operator `op` (with parameter `data`) at type `ty` on 64-bit operands, as in the simulator's specification. -/
def Evaluates (F : FloatOps) (op : OpType) (data : NodeData) (ty : DFType) (args : List Word) (v : Word) : Prop :=
  Means F ⟨op, data, ty, .stream, "", args.map fun _ => (0, false)⟩ (fun _ => .error .throw) args v

/-- Operators for which folding at type `ty` is evaluation (C06; the others disagree): arithmetic at fixed or float types, logic at all
types, comparisons of unsigned values. -/
def FoldsLikeSimulator (op : OpType) (ty : DFType) : Prop :=
  (op.isArith = true ∧ ty.isRawBits = false) ∨ op.isBitwise = true ∨ (op.isComparison = true ∧ ∃ i f, ty = .fixed false i f)

end Verif.Dfcxx
