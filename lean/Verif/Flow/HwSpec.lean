import Verif.Flow.Spec
/-
Specification of C68: what the generated hardware computes exactly, also where it differs from what the operators mean.  Nothing here
mentions processing orders, DFCIR, schedules or circuits.
-/
namespace Verif.Flow
open Verif.Dfcxx

/-- The integer a pattern of `w` bits stands for when it is read as signed (`s`) or unsigned. -/
def numAs (s : Bool) (w n : Nat) : Int := if s ∧ 2 ^ w ≤ 2 * n then (n : Int) - 2 ^ w else n

/-- Arithmetic in hardware: operands read with the signedness of the result, the operation modulo 2^(width of the wider operand), the
outcome read with the signedness of the result and extended or cut to its width. -/
def hwArith (f : Int → Int → Int) (ty : DFType) (a b : DFType × Nat) : Nat :=
  pattern ty (numAs ty.isSigned (max (width a.1) (width b.1))
    (f (numAs ty.isSigned (width a.1) a.2) (numAs ty.isSigned (width b.1) b.2) % 2 ^ max (width a.1) (width b.1)).toNat)

/-- Comparison in hardware: operands zero-extended to the wider width, and compared as signed numbers only if both types are signed. -/
def hwComp (f : Int → Int → Bool) (a b : DFType × Nat) : Bool :=
  f (numAs (a.1.isSigned && b.1.isSigned) (max (width a.1) (width b.1)) a.2)
    (numAs (a.1.isSigned && b.1.isSigned) (max (width a.1) (width b.1)) b.2)

/-- Left shift in hardware: a signed value keeps its sign bit, the other bits are shifted among themselves. -/
def hwShl (ty : DFType) (k n : Nat) : Nat :=
  if ty.isSigned then n / 2 ^ (width ty - 1) * 2 ^ (width ty - 1) + n * 2 ^ k % 2 ^ (width ty - 1) else n * 2 ^ k % 2 ^ width ty

/-- What the hardware of an operator of type `ty` computes from the types and patterns of its operands. -/
def hwMeaning (op : OpType) (data : NodeData) (ty : DFType) (args : List (DFType × Nat)) : Option Nat :=
  match op, data, args with
  | .ADD, _, [a, b] => some (hwArith (· + ·) ty a b)
  | .SUB, _, [a, b] => some (hwArith (· - ·) ty a b)
  | .MUL, _, [a, b] => some (hwArith (· * ·) ty a b)
  | .LESS, _, [a, b] => some (truth (hwComp (fun x y => decide (x < y)) a b))
  | .LESSEQ, _, [a, b] => some (truth (hwComp (fun x y => decide (x ≤ y)) a b))
  | .GREATER, _, [a, b] => some (truth (hwComp (fun x y => decide (x > y)) a b))
  | .GREATEREQ, _, [a, b] => some (truth (hwComp (fun x y => decide (x ≥ y)) a b))
  | .EQ, _, [a, b] => some (truth (hwComp (fun x y => decide (x = y)) a b))
  | .NEQ, _, [a, b] => some (truth (hwComp (fun x y => decide (x ≠ y)) a b))
  | .AND, _, [a, b] => some (a.2 &&& b.2)
  | .OR, _, [a, b] => some (a.2 ||| b.2)
  | .XOR, _, [a, b] => some (a.2 ^^^ b.2)
  | .NOT, _, [a] => some (2 ^ width ty - 1 - a.2)
  | .CAST, _, [a] => some (pattern ty (numAs ty.isSigned (width a.1) a.2))
  | .SHL, .bitShift k, [a] => some (hwShl ty k a.2)
  | .SHR, .bitShift k, [a] => some (pattern ty (number a.1 a.2 / 2 ^ k))
  | .BITS, .bitsRange l r, [a] => some (a.2 / 2 ^ r % 2 ^ (l - r + 1))
  | .CAT, _, [a, b] => some (a.2 * 2 ^ width b.1 + b.2)
  | _, _, _ => none

/-- The streams of a kernel as the hardware computes them: `StreamVal` with `hwMeaning`. -/
inductive HwVal (V : Nat → NodeV) (inp : String → Nat → Nat) : Nat → Int → Nat → Prop
  | input {n} {k : Nat} (h : (V n).op = .IN) (hk : (V n).kind = .stream) : HwVal V inp n k (inp (V n).name k)
  | scalar {n t} (h : (V n).op = .IN) (hk : (V n).kind ≠ .stream) : HwVal V inp n t (inp (V n).name 0)
  | const {n t c} (h : (V n).op = .CONST) (hk : (V n).kind = .const c) : HwVal V inp n t (pattern (V n).ty (constInt (V n).ty c))
  | out {n s t a} (h : (V n).op = .OUT) (hs : (V n).srcs = [s]) (ha : HwVal V inp s t a) : HwVal V inp n t a
  | offset {n s t a k} (h : (V n).op = .OFFSET) (hd : (V n).data = .offset k) (hs : (V n).srcs = [s])
      (ha : HwVal V inp s (t + k) a) : HwVal V inp n t a
  | mux {n c alts t i s a} (h : (V n).op = .MUX) (hs : (V n).srcs = c :: alts) (ht : 0 ≤ t) (hc : HwVal V inp c t i)
      (hi : alts[i]? = some s) (ha : HwVal V inp s t a) : HwVal V inp n t a
  | op {n t a} (vals : Nat → Nat) (ht : 0 ≤ t) (hs : ∀ s ∈ (V n).srcs, HwVal V inp s t (vals s))
      (ho : hwMeaning (V n).op (V n).data (V n).ty ((V n).srcs.map fun s => ((V s).ty, vals s)) = some a) : HwVal V inp n t a

/-- Widths the back end handles (the parameters of floating-point types are bytes, float.h:22-23).  Floating-point types are among them: units of
floating-point type are generated as integer units. -/
def SizeOK (ty : DFType) : Prop := 0 < width ty ∧ width ty < 65536 ∧ ∀ e f, ty = .float e f → e < 256 ∧ f < 256

theorem TypeOK.size {ty : DFType} (h : TypeOK ty) : SizeOK ty := ⟨h.1, h.2.1, fun e f he => absurd he (h.2.2 e f)⟩

/-- The operators and types for which legal hardware is produced whose output is a function of the operands, for an operator of
latency `L`.  Excluded: DIV and NEG (no hardware, C41), arithmetic units with a signed result and latency 0 (illegal Verilog, C54),
pipelined widening casts to signed types (their sign comes from another cycle, C40), floating-point constants, and what the verifier or FIRRTL reject (C61). -/
def ProducedFor (types : DFType → Prop) (V : Nat → NodeV) (L : Nat) (n : Nat) : Prop :=
  types (V n).ty ∧
  match (V n).op with
  | .IN => True
  | .CONST => ∀ e f, (V n).ty ≠ .float e f
  | .OFFSET => ∀ s ∈ (V n).srcs, (V s).kind = .stream
  | .OUT => ∀ s ∈ (V n).srcs, SameHw (V s).ty (V n).ty
  | .ADD | .SUB | .MUL => 0 < L ∨ unsignedTy (V n).ty
  | .LESS | .LESSEQ | .GREATER | .GREATEREQ | .EQ | .NEQ => unsignedTy (V n).ty
  | .AND | .OR | .XOR => unsignedTy (V n).ty ∧ ∀ a b, (V n).srcs = [a, b] →
      unsignedTy (V a).ty ∧ unsignedTy (V b).ty ∧ width (V n).ty = max (width (V a).ty) (width (V b).ty)
  | .NOT => unsignedTy (V n).ty ∧ (V n).kind = .stream ∧ ∀ s ∈ (V n).srcs, (V s).ty = (V n).ty ∧ (V s).kind = .stream
  | .CAST => ∀ s ∈ (V n).srcs, width (V n).ty ≤ width (V s).ty ∨ unsignedTy (V n).ty ∨ L = 0
  | .SHL => (unsignedTy (V n).ty ∨ 2 ≤ width (V n).ty) ∧ ∀ s ∈ (V n).srcs, SameHw (V s).ty (V n).ty
  | .SHR => ∀ s ∈ (V n).srcs, SameHw (V s).ty (V n).ty
  | .BITS => ∀ l r, (V n).data = .bitsRange l r → r ≤ l ∧ unsignedTy (V n).ty ∧ width (V n).ty = l - r + 1 ∧
      ∀ s ∈ (V n).srcs, l < width (V s).ty
  | .CAT => unsignedTy (V n).ty ∧ ∀ a b, (V n).srcs = [a, b] →
      (V a).ty.isSigned = (V b).ty.isSigned ∧ width (V n).ty = width (V a).ty + width (V b).ty
  | .MUX => ∀ c alts, (V n).srcs = c :: alts → (V c).kind = .stream ∧ alts ≠ [] ∧ ∀ a ∈ alts, SameHw (V a).ty (V n).ty
  | _ => False

/-- The same for all types of these widths. -/
abbrev Produced (V : Nat → NodeV) (L : Nat) (n : Nat) : Prop := ProducedFor SizeOK V L n

theorem ProducedFor.imp {T T' : DFType → Prop} {V : Nat → NodeV} {L n : Nat} (h : ProducedFor T V L n) (hT : ∀ ty, T ty → T' ty) : ProducedFor T' V L n :=
  ⟨hT _ h.1, h.2⟩

end Verif.Flow
