import Verif.Dfcxx.World
import Verif.Dfcxx.DfcirSpec
/-
Specification vocabulary for C03-C05, C10-C12: what a consistent graph is, which histories are considered, what a kernel's
equations are.
-/
namespace Verif.Dfcxx

/-- `n` is a node of a kernel under construction. -/
def World.Live (w : World) (n : Nat) : Prop := ∃ g ∈ w.stack, n ∈ g.nodes

/-- **Consistency** (C03): every channel in the outputs of a node starts there, ends in a node of the program and is among the
inputs of that node; and conversely; no channel is listed twice; no node belongs twice to the kernels; the start nodes are
inputs and constants of the same graph. -/
structure Consistent (w : World) : Prop where
  outs : ∀ n, w.Live n → ∀ c ∈ (w.node n).outs,
    (w.chan c).src = n ∧ w.Live (w.chan c).tgt ∧ c ∈ (w.node (w.chan c).tgt).ins
  ins : ∀ n, w.Live n → ∀ c ∈ (w.node n).ins,
    (w.chan c).tgt = n ∧ w.Live (w.chan c).src ∧ c ∈ (w.node (w.chan c).src).outs
  outsOnce : ∀ n, w.Live n → (w.node n).outs.Nodup
  insOnce : ∀ n, w.Live n → (w.node n).ins.Nodup
  nodesOnce : ∀ g ∈ w.stack, g.nodes.Nodup
  oneKernel : ∀ g ∈ w.stack, ∀ g' ∈ w.stack, ∀ n, n ∈ g.nodes → n ∈ g'.nodes → g = g'
  starts : ∀ g ∈ w.stack, g.starts.Nodup ∧ ∀ n ∈ g.starts, n ∈ g.nodes ∧ ((w.node n).op = .IN ∨ (w.node n).op = .CONST)
  consts : ∀ g ∈ w.stack, ∀ n ∈ g.nodes, (w.node n).op = .CONST → n ∈ g.starts ∧ g.id = 0

/-- There is a channel from `a` to `b`. -/
def World.Edge (w : World) (a b : Nat) : Prop := w.Live b ∧ ∃ c ∈ (w.node b).ins, (w.chan c).src = a

/-- `b` depends on `a`, or is `a`. -/
inductive World.Dep (w : World) : Nat → Nat → Prop
  | refl (a : Nat) : w.Dep a a
  | step {a b c : Nat} : w.Dep a b → w.Edge b c → w.Dep a c

/-- No node depends on itself along one or more channels. -/
def World.Acyclic (w : World) : Prop := ∀ a b, w.Edge a b → ¬ w.Dep b a

/-- The node of the innermost kernel that a binding names. -/
def World.Bound (w : World) (name : String) (n : Nat) : Prop :=
  ∃ S rest, w.stack = S :: rest ∧ S.names.lookup name = some n

/-- An instance is *clean* if nothing is connected into its bound inputs and nothing reads its bound outputs inside the
instance.  (Reading an output inside an instance leaves a channel from a deleted node: `read_instance_output_dangles`.) -/
def Clean (w : World) : Cmd → Prop
  | .endInst bs => ∀ b ∈ bs, ∀ n, w.Bound b.2 n →
      ((w.node n).op = .IN → (w.node n).ins = []) ∧ ((w.node n).op ≠ .IN → (w.node n).outs = [])
  | _ => True

/-- A call is *forward* if it does not close a loop: the source of a connection does not depend on its target, which is not a
constant, and no stream bound to an instance input depends on a variable bound to one of its outputs. -/
def Forward (w : World) : Cmd → Prop
  | .connect a b => (w.node a).op ≠ .CONST ∧ ¬ w.Dep a b
  | .endInst bs => ∀ b ∈ bs, ∀ b' ∈ bs, ∀ n n', w.Bound b.2 n → w.Bound b'.2 n' → (w.node n).op = .IN → (w.node n').op ≠ .IN →
      ¬ w.Dep b'.1 b.1
  | _ => True

/-- Only outputs and shallow variables are connected to. -/
def Sane (w : World) : Cmd → Prop
  | .connect a _ => (w.node a).op = .OUT ∨ (w.node a).op = .NONE
  | _ => True

/-- Connections and bindings are between variables of equal type (the library checks neither).  Not part of `WellUsed`: programs of the
standard library connect raw bits to unsigned outputs. -/
def Typed (w : World) : Cmd → Prop
  | .connect a b => (w.node a).ty = (w.node b).ty
  | .endInst bs => ∀ b ∈ bs, ∀ n, w.Bound b.2 n → (w.node b.1).ty = (w.node n).ty
  | _ => True

/-- The discipline a sensible program keeps. -/
structure WellUsed (w : World) (c : Cmd) : Prop where
  clean : Clean w c
  forward : Forward w c
  sane : Sane w c

/-- The operator a call creates a new node for, if any: operators on constants are folded, a cast to the same type returns its
argument. -/
def Cmd.creates (w : World) : Cmd → Option OpType
  | .bin op a b => if (w.node a).kind.isConst && (w.node b).kind.isConst then none else some op
  | .un op a => if (w.node a).kind.isConst then none else some op
  | .shift left a _ => if (w.node a).kind.isConst then none else some (if left then .SHL else .SHR)
  | .bits _ _ _ => some .BITS
  | .cat _ _ => some .CAT
  | .cast _ _ same => if same then none else some .CAST
  | .mux _ _ => some .MUX
  | .offset _ _ => some .OFFSET
  | _ => none

/-- The operators of `w` keep their operands in `w'` (C04): same operator, parameters and type, same operands in the same
order, except that an operand that no longer exists (an instance's input, a shallow variable) is replaced, by the same node
everywhere.  Outputs and shallow variables are not operators. -/
def KeepsOperands (w w' : World) : Prop := ∃ σ : Nat → Nat, (∀ x, w'.Live x → x < w.next → σ x = x) ∧
  ∀ m, w'.Live m → m < w.next → w.Live m ∧ (w'.node m).op = (w.node m).op ∧ (w'.node m).data = (w.node m).data ∧
    (w'.node m).ty = (w.node m).ty ∧ (w'.node m).kind = (w.node m).kind ∧
    ((w.node m).op ≠ .OUT → (w.node m).op ≠ .NONE → (w'.view m).ins = (w.view m).ins.map fun p => (σ p.1, p.2))

/-- `n` is a constant of type `ty` and bit pattern `v`. -/
structure World.IsConst (w : World) (n : Nat) (ty : DFType) (v : Word) : Prop where
  live : w.Live n
  op : (w.node n).op = .CONST
  ty : (w.node n).ty = ty
  val : (w.node n).kind = .const v

/-- The call does not bind `v` to an output of an instance. -/
def NotDefining (v : Nat) (w : World) (c : Cmd) : Prop :=
  ∀ bs, c = .endInst bs → ∀ b ∈ bs, ∀ n, w.Bound b.2 n → (w.node n).op ≠ .IN → b.1 ≠ v

/-- Every input of the instance is bound. -/
def BindsInputs (w : World) : Cmd → Prop
  | .endInst bs => ∀ S rest, w.stack = S :: rest → ∀ n ∈ S.nodes, (w.node n).op = .IN → ∃ b ∈ bs, w.Bound b.2 n
  | _ => True

/-- The discipline of `WellUsed`, and no input of an instance is left unbound. -/
def Proper (w : World) (c : Cmd) : Prop := WellUsed w c ∧ BindsInputs w c

/-- The kernel is finished: no instance is open, the check passes, every output is connected exactly once, and every offset has the type
of the stream it reads (true if connections and bindings are between variables of equal type, `typed_offsets`). -/
structure Finished (w : World) (g : KGraph) : Prop where
  only : w.stack = [g]
  check : w.check g = true
  outputs : ∀ n ∈ g.nodes, (w.node n).op = .OUT → (w.node n).ins.length = 1
  offsets : ∀ n ∈ g.nodes, (w.node n).op = .OFFSET → ∀ s ∈ (w.view n).srcs, (w.view s).ty = (w.view n).ty

/-- The graph `topSort` is called on, with an arbitrary enumeration of the hash sets.  (Deleted nodes are no part of it.) -/
structure Enumeration (w : World) (g : KGraph) (G : TopSort.Graph Nat) : Prop where
  nodes : G.nodes.Perm g.nodes
  starts : G.starts.Perm g.starts
  outs : ∀ n ∈ g.nodes, G.outs n = (w.node n).outs.map fun c => (w.chan c).tgt
  dead : ∀ n, n ∉ g.nodes → G.outs n = []

/-- The equations of all nodes of the kernels under construction; a variable without a definition imposes nothing. -/
def Equations {α : Type} (I : Interp α) (w : World) (ρ : Nat → α) : Prop :=
  ∀ m, w.Live m → (w.node m).op ≠ .NONE → NodeEq I w.view ρ m

/-- What instantiating a kernel should mean (C10): the equations of the caller and of the instance, except that a bound input
takes its value from the caller's stream instead of from outside, and a bound output gives its value to the caller's
variable. -/
structure Composite {α : Type} (I : Interp α) (w : World) (bs : List (Nat × String)) (ρ : Nat → α) : Prop where
  eqs : ∀ m, w.Live m → (w.node m).op ≠ .NONE → (¬ ((w.node m).op = .IN ∧ ∃ b ∈ bs, w.Bound b.2 m)) → NodeEq I w.view ρ m
  bound : ∀ b ∈ bs, ∀ n, w.Bound b.2 n → ρ b.1 = ρ n

/-- A history all of whose calls satisfy `P` in the state in which they are made. -/
inductive Hist (F : FloatOps) (P : World → Cmd → Prop) : World → World → Prop
  | nil (w : World) : Hist F P w w
  | snoc {w w1 w2 : World} {rs : List Nat} (c : Cmd) : Hist F P w w1 → P w1 c → w1.exec F c = .ok (w2, rs) → Hist F P w w2

end Verif.Dfcxx
