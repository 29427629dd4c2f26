import Verif.Dfcxx.Dfcir
import Verif.Dfcxx.SimSpec
/-
Specification for C24: what a graph node and what a DFCIR operation mean, for arbitrary values and an arbitrary
interpretation of the operators.
-/
namespace Verif.Dfcxx

/-- An interpretation of the operators over values `α`. -/
structure Interp (α : Type) where
  inp : String → α                                      -- value of the input of this name
  cst : DFType → Nat → α                                -- constant of this type and bit pattern
  sel : α → Nat                                         -- a select value read as a number
  app : OpType → List Int → DFType → List α → α         -- any other operator: parameters, result type, operands

/-- Parameters of a node: offset, shift amount, bit range. -/
def paramsOf : NodeData → List Int
  | .offset o => [o]
  | .bitShift k => [k]
  | .bitsRange l r => [l, r]
  | _ => []

/-- The equation a node of the graph imposes on the values `ρ` of the nodes.  A multiplexer's first operand selects among
the others, counted from 0; an out-of-range select leaves the result open. -/
def NodeEq {α : Type} (I : Interp α) (V : Nat → NodeV) (ρ : Nat → α) (n : Nat) : Prop :=
  match (V n).op with
  | .IN => ρ n = I.inp (V n).name
  | .CONST => ∀ c, (V n).kind = .const c → ρ n = I.cst (V n).ty (constInt (V n).ty c % 2 ^ (V n).ty.totalBits).toNat
  | .OUT => ∀ s, (V n).srcs = [s] → ρ n = ρ s
  | .MUX => ∀ c alts, (V n).srcs = c :: alts → ∀ a, alts[I.sel (ρ c)]? = some a → ρ n = ρ a
  | op => ρ n = I.app op (match op with | .OFFSET | .SHL | .SHR | .BITS => paramsOf (V n).data | _ => []) (V n).ty
      ((V n).srcs.map ρ)

/-- The operator a DFCIR operation stands for. -/
def DKind.meaning : DKind → OpType
  | .offset => .OFFSET
  | .input | .scalarInput => .IN
  | .output | .scalarOutput => .OUT
  | .constant => .CONST
  | .mux => .MUX
  | .add => .ADD
  | .sub => .SUB
  | .mul => .MUL
  | .div => .DIV
  | .and => .AND
  | .or => .OR
  | .xor => .XOR
  | .not => .NOT
  | .neg => .NEG
  | .less => .LESS
  | .lessEq => .LESSEQ
  | .greater => .GREATER
  | .greaterEq => .GREATEREQ
  | .eq => .EQ
  | .notEq => .NEQ
  | .cast => .CAST
  | .shl => .SHL
  | .shr => .SHR
  | .bits => .BITS
  | .cat => .CAT

def DAttr.params : DAttr → List Int
  | .ints l => l
  | _ => []

/-- The equation a DFCIR statement imposes on the SSA values `env`; `i` is the value it defines.  An output is given its value
by a connection.  `dfcir.mux c, v_k, ..., v_0` is `firrtl.multibit_mux`: the select counts from the last operand. -/
def StmtEq {α : Type} (I : Interp α) (env : Nat → α) (i : Nat) : DStmt → Prop
  | .connect d s => env d = env s
  | .op k ty attr operands =>
    match k.meaning with
    | .IN => ∀ s, attr = .name s → env i = I.inp s
    | .OUT => True
    | .CONST => ∀ w v, attr = .const w v → env i = I.cst ty.ty v
    | .MUX => ∀ c vars, operands = c :: vars → ∀ a, vars.reverse[I.sel (env c)]? = some a → env i = env a
    | op => env i = I.app op attr.params ty.ty (operands.map env)

/-- All statements hold; the first operation with a result defines value `i`. -/
def Holds {α : Type} (I : Interp α) (env : Nat → α) : Nat → List DStmt → Prop
  | _, [] => True
  | i, .connect d s :: rest => StmtEq I env i (.connect d s) ∧ Holds I env i rest
  | i, .op k ty attr operands :: rest => StmtEq I env i (.op k ty attr operands) ∧ Holds I env (i + 1) rest

/-- Every operand refers to a value defined earlier. -/
def SsaOK : Nat → List DStmt → Prop
  | _, [] => True
  | i, .connect d s :: rest => d < i ∧ s < i ∧ SsaOK i rest
  | i, .op _ _ _ operands :: rest => (∀ o ∈ operands, o < i) ∧ SsaOK (i + 1) rest

/-- Nodes as a finished kernel contains them: no shallow variable, operators with their operands, a multiplexer's select
first, an output with exactly one connected source, an offset with the type of its stream. -/
structure Complete (V : Nat → NodeV) (n : Nat) : Prop where
  notNone : (V n).op ≠ .NONE
  flags   : (V n).op ≠ .OUT → ∀ p ∈ (V n).ins, p.2 = false
  input   : (V n).op = .IN → (V n).ins = []
  const   : (V n).op = .CONST → ∃ c, (V n).kind = .const c
  out     : (V n).op = .OUT → ∃ s, (V n).ins = [(s, true)]
  mux     : (V n).op = .MUX → (V n).data = .muxId 0 ∧ ∃ c alts, (V n).srcs = c :: alts
  unary   : (V n).op ∈ [.NOT, .NEG, .CAST, .OFFSET, .SHL, .SHR, .BITS] → ∃ s, (V n).srcs = [s]
  binary  : (V n).op ∈ [.ADD, .SUB, .MUL, .DIV, .AND, .OR, .XOR, .LESS, .LESSEQ, .GREATER, .GREATEREQ, .EQ, .NEQ, .CAT] →
    ∃ a b, (V n).srcs = [a, b]
  offset  : (V n).op = .OFFSET → (∃ o, (V n).data = .offset o) ∧ ∀ s ∈ (V n).srcs, (V s).ty = (V n).ty
  shift   : (V n).op ∈ [.SHL, .SHR] → ∃ k, (V n).data = .bitShift k
  bits    : (V n).op = .BITS → ∃ l r, (V n).data = .bitsRange l r

end Verif.Dfcxx
