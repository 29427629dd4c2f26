import Verif.Dfcxx.Sim
import Verif.TopSort.Spec
/-
Specification side for the simulator properties C13-C15, C18: what a node *means* on one tick, in terms of
integer arithmetic, and the dataflow value of a node as an inductive relation.  Nothing here refers to the
processing order or to the simulator's value table.
-/
namespace Verif.Dfcxx

/-- `v` is the 64-bit image of the integer `r`, for an unsigned (wrapping) or signed (exact) result. -/
def IsUnsigned (v : Word) (r : Int) : Prop := (v.toNat : Int) = r % 2^64
def IsSigned (v : Word) (r : Int) : Prop := v.toInt = r

/-- A truth value. -/
def IsBool (v : Word) (p : Prop) : Prop := (p → v = 1) ∧ (¬ p → v = 0)

/-- Meaning of an operator node on one tick: operand values `args`, result `v`. Fixed-point nodes are evaluated
as 64-bit unsigned or signed integers according to the type of the node itself.  Float nodes are left to the
parameter `F`. -/
def Means (F : FloatOps) (n : NodeV) (inp : TickIn) (args : List Word) (v : Word) : Prop :=
  match n.op, args, n.ty with
  | .IN, _, _ => inp n.name = .ok v
  | .OUT, a :: _, _ => v = a
  | .CONST, _, _ => n.kind = .const v
  | .MUX, _, _ =>
      -- the select value s picks alternative s; alternatives follow the select operand
      n.data = .muxId 0 ∧ ∃ sel alts, args = sel :: alts ∧ alts[sel.toNat]? = some v
  | .ADD, a :: b :: _, .fixed false _ _ => IsUnsigned v (a.toNat + b.toNat)
  | .SUB, a :: b :: _, .fixed false _ _ => IsUnsigned v (a.toNat - b.toNat)
  | .MUL, a :: b :: _, .fixed false _ _ => IsUnsigned v (a.toNat * b.toNat)
  | .DIV, a :: b :: _, .fixed false _ _ => b ≠ 0 ∧ v.toNat = a.toNat / b.toNat
  | .ADD, a :: b :: _, .fixed true _ _ => IsSigned v (a.toInt + b.toInt)
  | .SUB, a :: b :: _, .fixed true _ _ => IsSigned v (a.toInt - b.toInt)
  | .MUL, a :: b :: _, .fixed true _ _ => IsSigned v (a.toInt * b.toInt)
  | .DIV, a :: b :: _, .fixed true _ _ => b ≠ 0 ∧ IsSigned v (a.toInt.tdiv b.toInt)
  | .ADD, a :: b :: _, .float _ _ => v = F.add a b
  | .SUB, a :: b :: _, .float _ _ => v = F.sub a b
  | .MUL, a :: b :: _, .float _ _ => v = F.mul a b
  | .DIV, a :: b :: _, .float _ _ => v = F.div a b
  | .LESS, a :: b :: _, .fixed false _ _ => IsBool v (a.toNat < b.toNat)
  | .LESSEQ, a :: b :: _, .fixed false _ _ => IsBool v (a.toNat ≤ b.toNat)
  | .GREATER, a :: b :: _, .fixed false _ _ => IsBool v (b.toNat < a.toNat)
  | .GREATEREQ, a :: b :: _, .fixed false _ _ => IsBool v (b.toNat ≤ a.toNat)
  | .EQ, a :: b :: _, .fixed false _ _ => IsBool v (a = b)
  | .NEQ, a :: b :: _, .fixed false _ _ => IsBool v (a ≠ b)
  | .AND, a :: b :: _, _ => ∀ i, v.getLsbD i = (a.getLsbD i && b.getLsbD i)
  | .OR, a :: b :: _, _ => ∀ i, v.getLsbD i = (a.getLsbD i || b.getLsbD i)
  | .XOR, a :: b :: _, _ => ∀ i, v.getLsbD i = (a.getLsbD i != b.getLsbD i)
  | .NOT, a :: _, _ => ∀ i < 64, v.getLsbD i = !a.getLsbD i
  | .NEG, a :: _, .fixed false _ _ => IsUnsigned v (-(a.toNat : Int))
  | .NEG, a :: _, .fixed true _ _ => IsSigned v (-a.toInt)
  | .NEG, a :: _, .float _ _ => v = F.neg a
  | .SHL, a :: _, _ => ∃ k, n.data = .bitShift k ∧ k < 64 ∧ v.toNat = a.toNat * 2^k % 2^64
  | .SHR, a :: _, _ => ∃ k, n.data = .bitShift k ∧ k < 64 ∧ v.toNat = a.toNat / 2^k
  | _, _, _ => False

/-- The value of the expression rooted at node `n` on a tick with inputs `inp`. -/
inductive Denotes (F : FloatOps) (V : Nat → NodeV) (inp : TickIn) : Nat → Word → Prop
  | node (n : Nat) (val : Nat → Word) (v : Word)
      (hargs : ∀ s ∈ (V n).srcs, Denotes F V inp s (val s))
      (hv : Means F (V n) inp ((V n).srcs.map val) v) :
      Denotes F V inp n v

/-- Nodes as the public API builds them (stream.cpp, scalar.cpp, control.cpp, io.cpp, constant.cpp): operator
nodes have their operands, comparison nodes have the boolean type, multiplexers have the select first. -/
structure NodeV.Shape (n : NodeV) : Prop where
  unary  : n.op ∈ [.OUT, .NOT, .NEG, .SHL, .SHR] → 1 ≤ n.ins.length
  binary : n.op ∈ [.ADD, .SUB, .MUL, .DIV, .AND, .OR, .XOR, .LESS, .LESSEQ, .GREATER, .GREATEREQ, .EQ, .NEQ] →
    2 ≤ n.ins.length
  comp   : n.op.isComparison = true → n.ty = buildBool
  mux    : n.op = .MUX → n.data = .muxId 0 ∧ 1 ≤ n.ins.length
  const  : n.op = .CONST → ∃ v, n.kind = .const v
  shift  : n.op ∈ [.SHL, .SHR] → ∃ k, n.data = .bitShift k

/-- A valid processing order: no repetition, every node after the nodes it reads. -/
structure TopoOrder (V : Nat → NodeV) (order : List Nat) : Prop where
  nodup  : order.Nodup
  before : ∀ n ∈ order, ∀ s ∈ (V n).srcs, TopSort.Before order s n

/-- Node kinds the simulator does not implement, and arithmetic at raw-bits type. -/
def Unsupported (n : NodeV) : Prop :=
  n.op ∈ [.NONE, .OFFSET, .CAST, .BITS, .CAT] ∨
  (n.op ∈ [.ADD, .SUB, .MUL, .DIV, .NEG, .LESS, .LESSEQ, .GREATER, .GREATEREQ, .EQ, .NEQ] ∧
    n.ty.isRawBits = true)

end Verif.Dfcxx
