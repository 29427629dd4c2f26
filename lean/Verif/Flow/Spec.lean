import Verif.Dfcxx.DfcirSpec
/-
Specification of C58: the streams a kernel's graph denotes, as bit patterns.  Nothing here mentions processing orders, DFCIR,
schedules or circuits.
-/
namespace Verif.Flow
open Verif.Dfcxx

/-- Number of bits of a type. -/
def width : DFType → Nat
  | .fixed s i f => (if s then 1 else 0) + i + f
  | .float e f => 1 + e + f
  | .rawBits b => b

/-- The integer a bit pattern stands for (two's complement for signed types; a fixed-point number is read without its point). -/
def number (ty : DFType) (n : Nat) : Int :=
  if ty.isSigned ∧ 2 ^ width ty ≤ 2 * n then (n : Int) - 2 ^ width ty else n

/-- The bit pattern of an integer, modulo 2^width. -/
def pattern (ty : DFType) (z : Int) : Nat := (z % 2 ^ width ty).toNat

/-- The pattern of a truth value. -/
def truth (b : Bool) : Nat := if b then 1 else 0

/-- What an operator of type `ty` computes from the types and bit patterns of its operands. -/
def opMeaning (op : OpType) (data : NodeData) (ty : DFType) (args : List (DFType × Nat)) : Option Nat :=
  match op, data, args with
  | .ADD, _, [a, b] => some (pattern ty (number a.1 a.2 + number b.1 b.2))
  | .SUB, _, [a, b] => some (pattern ty (number a.1 a.2 - number b.1 b.2))
  | .MUL, _, [a, b] => some (pattern ty (number a.1 a.2 * number b.1 b.2))
  | .DIV, _, [a, b] => if number b.1 b.2 = 0 then none else some (pattern ty ((number a.1 a.2).tdiv (number b.1 b.2)))
  | .NEG, _, [a] => some (pattern ty (-number a.1 a.2))
  | .LESS, _, [a, b] => some (truth (number a.1 a.2 < number b.1 b.2))
  | .LESSEQ, _, [a, b] => some (truth (number a.1 a.2 ≤ number b.1 b.2))
  | .GREATER, _, [a, b] => some (truth (number a.1 a.2 > number b.1 b.2))
  | .GREATEREQ, _, [a, b] => some (truth (number a.1 a.2 ≥ number b.1 b.2))
  | .EQ, _, [a, b] => some (truth (number a.1 a.2 = number b.1 b.2))
  | .NEQ, _, [a, b] => some (truth (number a.1 a.2 ≠ number b.1 b.2))
  | .AND, _, [a, b] => some (a.2 &&& b.2)
  | .OR, _, [a, b] => some (a.2 ||| b.2)
  | .XOR, _, [a, b] => some (a.2 ^^^ b.2)
  | .NOT, _, [a] => some (2 ^ width ty - 1 - a.2)
  | .CAST, _, [a] => some (pattern ty (number a.1 a.2))
  | .SHL, .bitShift k, [a] => some (pattern ty (number a.1 a.2 * 2 ^ k))
  | .SHR, .bitShift k, [a] => some (pattern ty (number a.1 a.2 / 2 ^ k))
  | .BITS, .bitsRange l r, [a] => some (a.2 / 2 ^ r % 2 ^ (l - r + 1))
  | .CAT, _, [a, b] => some (a.2 * 2 ^ width b.1 + b.2)
  | _, _, _ => none

/-- `StreamVal V inp n t a`: element `t` of the stream of node `n` has bit pattern `a`, when input `name` is fed the patterns
`inp name 0, inp name 1, ...` (a scalar input: `inp name 0` for ever).  Offsets shift the stream; a multiplexer needs its select and the
selected alternative, counted from 0; operators need all operands. -/
inductive StreamVal (V : Nat → NodeV) (inp : String → Nat → Nat) : Nat → Int → Nat → Prop
  | input {n} {k : Nat} (h : (V n).op = .IN) (hk : (V n).kind = .stream) : StreamVal V inp n k (inp (V n).name k)
  | scalar {n t} (h : (V n).op = .IN) (hk : (V n).kind ≠ .stream) : StreamVal V inp n t (inp (V n).name 0)
  | const {n t c} (h : (V n).op = .CONST) (hk : (V n).kind = .const c) : StreamVal V inp n t (pattern (V n).ty (constInt (V n).ty c))
  | out {n s t a} (h : (V n).op = .OUT) (hs : (V n).srcs = [s]) (ha : StreamVal V inp s t a) : StreamVal V inp n t a
  | offset {n s t a k} (h : (V n).op = .OFFSET) (hd : (V n).data = .offset k) (hs : (V n).srcs = [s])
      (ha : StreamVal V inp s (t + k) a) : StreamVal V inp n t a
  | mux {n c alts t i s a} (h : (V n).op = .MUX) (hs : (V n).srcs = c :: alts) (ht : 0 ≤ t) (hc : StreamVal V inp c t i)
      (hi : alts[i]? = some s) (ha : StreamVal V inp s t a) : StreamVal V inp n t a
  | op {n t a} (vals : Nat → Nat) (ht : 0 ≤ t) (hs : ∀ s ∈ (V n).srcs, StreamVal V inp s t (vals s))
      (ho : opMeaning (V n).op (V n).data (V n).ty ((V n).srcs.map fun s => ((V s).ty, vals s)) = some a) : StreamVal V inp n t a

/-- Types the back end handles: fixed-point and raw bits, of positive width.  (Units for floating-point types are generated as integer
units, and their widths disagree.) -/
def TypeOK (ty : DFType) : Prop := 0 < width ty ∧ width ty < 65536 ∧ ∀ e f, ty ≠ .float e f

def unsignedTy (ty : DFType) : Prop := ty.isSigned = false

/-- Types with the same hardware representation. -/
def SameHw (a b : DFType) : Prop := width a = width b ∧ a.isSigned = b.isSigned

/-- The operators and types for which the generated hardware is right, for an operator of latency `L`.  The excluded cases are excluded
because the code gets them wrong or produces no hardware: see C40, C41, C42, C54, C61. -/
def Supported (V : Nat → NodeV) (L : Nat) (n : Nat) : Prop :=
  TypeOK (V n).ty ∧
  match (V n).op with
  | .IN | .CONST => True
  | .OFFSET => ∀ s ∈ (V n).srcs, (V s).kind = .stream
  | .OUT => ∀ s ∈ (V n).srcs, SameHw (V s).ty (V n).ty
  | .ADD | .SUB | .MUL => ∀ a b, (V n).srcs = [a, b] →
      width (V n).ty ≤ max (width (V a).ty) (width (V b).ty) ∧
      (width (V n).ty ≤ width (V a).ty ∨ (V a).ty.isSigned = (V n).ty.isSigned) ∧
      (width (V n).ty ≤ width (V b).ty ∨ (V b).ty.isSigned = (V n).ty.isSigned) ∧
      (0 < L ∨ (unsignedTy (V n).ty ∧ unsignedTy (V a).ty ∧ unsignedTy (V b).ty))
  | .LESS | .LESSEQ | .GREATER | .GREATEREQ | .EQ | .NEQ => unsignedTy (V n).ty ∧ ∀ a b, (V n).srcs = [a, b] →
      (V a).ty.isSigned = (V b).ty.isSigned ∧ (unsignedTy (V a).ty ∨ width (V a).ty = width (V b).ty)
  | .AND | .OR | .XOR => unsignedTy (V n).ty ∧ ∀ a b, (V n).srcs = [a, b] →
      unsignedTy (V a).ty ∧ unsignedTy (V b).ty ∧ width (V n).ty = max (width (V a).ty) (width (V b).ty)
  | .NOT => unsignedTy (V n).ty ∧ (V n).kind = .stream ∧ ∀ s ∈ (V n).srcs, (V s).ty = (V n).ty ∧ (V s).kind = .stream
  | .CAST => ∀ s ∈ (V n).srcs,
      (width (V n).ty ≤ width (V s).ty ∨ (V s).ty.isSigned = (V n).ty.isSigned) ∧
      (width (V n).ty ≤ width (V s).ty ∨ unsignedTy (V n).ty ∨ L = 0)
  | .SHL => unsignedTy (V n).ty ∧ ∀ s ∈ (V n).srcs, SameHw (V s).ty (V n).ty
  | .SHR => ∀ s ∈ (V n).srcs, SameHw (V s).ty (V n).ty
  | .BITS => ∀ l r, (V n).data = .bitsRange l r → r ≤ l ∧ unsignedTy (V n).ty ∧ width (V n).ty = l - r + 1 ∧
      ∀ s ∈ (V n).srcs, l < width (V s).ty
  | .CAT => unsignedTy (V n).ty ∧ ∀ a b, (V n).srcs = [a, b] →
      (V a).ty.isSigned = (V b).ty.isSigned ∧ width (V n).ty = width (V a).ty + width (V b).ty
  | .MUX => ∀ c alts, (V n).srcs = c :: alts → (V c).kind = .stream ∧ alts ≠ [] ∧ ∀ a ∈ alts, SameHw (V a).ty (V n).ty
  | _ => False

end Verif.Flow
