import Verif.Hw.Names
/-
Model of the Verilog modules the stub generator emits (/repo/src/model/dfcir):
  templates/stubs.tpl (the five templates) and
  lib/dfcir/passes/FIRRTLStubsGeneratorPass.cpp (the values substituted for WIDTH*, REPEAT*, CAT, RWIDTH, PREPARED_WIDTH,
  LATENCY, SIGNED*, OP).

Verilog is modelled as follows.  A vector of width `w` is a `BitVec w` (no x/z values; registers start with an arbitrary
value instead).  A concatenation is unsigned, so assigning it to a wire pads with zeros or truncates (`setWidth`).
`always @ (posedge clk)` with non-blocking assignments: all right-hand sides are evaluated in the state before the edge,
then the assignments are performed in order.  An operator is evaluated at the width of its (equally wide) operands; a
comparison is signed iff both operands are declared `signed` (IEEE 1364-2005, 5.5).
Not modelled: the 32-bit range of `integer i`, and timing within a cycle.
-/
namespace Verif.Hw

/-- `{n{b}, x}`. -/
def repCat {w : Nat} (n : Nat) (b : Bool) (x : BitVec w) : BitVec (n + w) :=
  (if b then BitVec.allOnes n else 0#n) ++ x

/-! ### Shift registers -/

/-- The loop `for (i = LATENCY; i != 0; i = i - 1) r[i] <= r[i - 1];` (stubs.tpl:16-18, 38-40, 78-80): the non-blocking
assignments it schedules, in order. -/
def shiftLoop {α : Type} (r : Nat → α) : Nat → List (Nat × α)
  | 0 => []
  | i + 1 => (i + 1, r i) :: shiftLoop r i

/-- Performing the scheduled assignments. -/
def applyNba {α : Type} (r : Nat → α) (as : List (Nat × α)) : Nat → α :=
  as.foldl (fun r a j => if j = a.1 then a.2 else r j) r

/-- One clock edge (stubs.tpl:15-20, 37-42, 77-82): the loop from `last`, and `r[0] <= x`. -/
def shiftEdge {α : Type} (last : Nat) (r : Nat → α) (x : α) : Nat → α :=
  applyNba r (shiftLoop r last ++ [(0, x)])

/-- Contents of `r` during cycle `t`: `r0` at first, one edge between consecutive cycles. -/
def shiftState {α : Type} (last : Nat) (r0 : Nat → α) (x : Nat → α) : Nat → Nat → α
  | 0 => r0
  | t + 1 => shiftEdge last (shiftState last r0 x t) (x t)

/-! ### FIFO_MODULES -/

/-- FIFO_MODULES (stubs.tpl:11-24), depth `latency`; `LATENCY` is `latency - 1` (FIRRTLStubsGeneratorPass.cpp:219).
The value on `res1` in cycle `t`. -/
def fifoOut {w : Nat} (latency : Nat) (r0 : Nat → BitVec w) (arg1 : Nat → BitVec w) (t : Nat) : BitVec w :=
  shiftState (latency - 1) r0 arg1 t (latency - 1)

/-! ### Casts -/

/-- `REPEAT_VAL` (FIRRTLStubsGeneratorPass.cpp:84-88): the top bit of the value *now* on `arg1` if the result is signed. -/
def castRepeatVal {w1 : Nat} (resSigned : Bool) (arg1 : BitVec w1) : Bool :=
  if resSigned then arg1.getLsbD (w1 - 1) else false

/-- `REPEAT` and `CAT` (lines 78-82). -/
def castCat {w1 : Nat} (w2 : Nat) (b : Bool) (x : BitVec w1) : BitVec (max w2 w1) :=
  (repCat (w2 - w1) b x).setWidth (max w2 w1)

/-- COMB_CAST_MODULES (stubs.tpl:25-31): value on `res1`. -/
def combCast {w1 : Nat} (w2 : Nat) (resSigned : Bool) (arg1 : BitVec w1) : BitVec w2 :=
  (castCat w2 (castRepeatVal resSigned arg1) arg1).extractLsb' 0 w2

/-- CAST_MODULES (stubs.tpl:33-47): value on `res1` in cycle `t`. -/
def castOut {w1 : Nat} (w2 : Nat) (resSigned : Bool) (latency : Nat) (r0 : Nat → BitVec w1) (arg1 : Nat → BitVec w1)
    (t : Nat) : BitVec w2 :=
  (castCat w2 (castRepeatVal resSigned (arg1 t)) (shiftState (latency - 1) r0 arg1 t (latency - 1))).extractLsb' 0 w2

/-- The cast module for a latency (FIRRTLStubsGeneratorPass.cpp:59-61 selects the template). -/
def castModule {w1 : Nat} (w2 : Nat) (resSigned : Bool) (latency : Nat) (r0 : Nat → BitVec w1) (arg1 : Nat → BitVec w1)
    (t : Nat) : BitVec w2 :=
  if latency ≠ 0 then castOut w2 resSigned latency r0 arg1 t else combCast w2 resSigned (arg1 t)

/-! ### Binary operations -/

/-- `isCompOp` (FIRRTLStubsGeneratorPass.cpp:98-117). -/
def VOp.isComp : VOp → Bool
  | .le | .ge | .lt | .gt | .eq | .ne => true
  | _ => false

/-- `RWIDTH` (lines 158-160). -/
def rWidth (op : VOp) (w1 w2 : Nat) : Nat := if op.isComp then 1 else max w1 w2

/-- `ARGi_prepared` (stubs.tpl:56-57, 73-74; lines 162-168, 177-184): `{REPEATi{REPEAT_VALi}, ARGi}` assigned to a wire of
width `PREPARED_WIDTH`. -/
def prepared {w : Nat} (op : VOp) (resSigned : Bool) (w1 w2 : Nat) (arg : BitVec w) : BitVec (max w1 w2) :=
  (repCat (rWidth op w1 w2 - w) (if resSigned then arg.getLsbD (w - 1) else false) arg).setWidth (max w1 w2)

/-- Verilog's relational operators on equally wide operands. -/
def vcomp {p : Nat} (op : VOp) (sgn : Bool) (a b : BitVec p) : Bool :=
  match op with
  | .le => if sgn then a.sle b else a.ule b
  | .ge => if sgn then b.sle a else b.ule a
  | .lt => if sgn then a.slt b else a.ult b
  | .gt => if sgn then b.slt a else b.ult a
  | .eq => a == b
  | .ne => a != b
  | _ => false

/-- Verilog's arithmetic and bitwise operators on equally wide operands assigned to a vector of the same width. -/
def varith {p : Nat} (op : VOp) (a b : BitVec p) : BitVec p :=
  match op with
  | .add => a + b
  | .sub => a - b
  | .mul => a * b
  | .and => a &&& b
  | .or => a ||| b
  | .xor => a ^^^ b
  | _ => 0#p

/-- The right-hand side assigned to `r` (stubs.tpl:59, 81) with the operands declared `SIGNED1`, `SIGNED2`. -/
def opRhs {w1 w2 : Nat} (op : VOp) (s1 s2 s3 : Bool) (arg1 : BitVec w1) (arg2 : BitVec w2) : BitVec (rWidth op w1 w2) :=
  let a := prepared op s3 w1 w2 arg1
  let b := prepared op s3 w1 w2 arg2
  if op.isComp then (BitVec.ofBool (vcomp op (s1 && s2) a b)).setWidth _ else (varith op a b).setWidth _

/-- `cat` and `res1` (stubs.tpl:61-62, 83-84; lines 166-172, 180-186). -/
def resOf {rw : Nat} (w3 : Nat) (b : Bool) (r : BitVec rw) : BitVec w3 :=
  ((repCat (w3 - rw) b r).setWidth (max w3 rw)).extractLsb' 0 w3

/-- BINARY_MODULES (stubs.tpl:66-87): value on `res1` in cycle `t`.  `REPEAT_VAL3` is `r[latency - 1][rWidth - 1]` when the
result is signed. -/
def binaryOut {w1 w2 : Nat} (op : VOp) (s1 s2 s3 : Bool) (w3 : Nat) (latency : Nat) (r0 : Nat → BitVec (rWidth op w1 w2))
    (arg1 : Nat → BitVec w1) (arg2 : Nat → BitVec w2) (t : Nat) : BitVec w3 :=
  let r := shiftState (latency - 1) r0 (fun t => opRhs op s1 s2 s3 (arg1 t) (arg2 t)) t (latency - 1)
  resOf w3 (if s3 then r.getLsbD (rWidth op w1 w2 - 1) else false) r

/-- COMB_BINARY_MODULES (stubs.tpl:49-64): value on `res1`, or `none` if the emitted text is not legal Verilog: with a
signed result `REPEAT_VAL3` is `r[-1][rWidth - 1]` (line 183 with latency 0), a bit-select of a bit-select of the vector
`r`. -/
def combBinary {w1 w2 : Nat} (op : VOp) (s1 s2 s3 : Bool) (w3 : Nat) (arg1 : BitVec w1) (arg2 : BitVec w2) :
    Option (BitVec w3) :=
  if s3 then none else some (resOf w3 false (opRhs op s1 s2 s3 arg1 arg2))

/-- The binary module for a latency (line 129-131 selects the template). -/
def binaryModule {w1 w2 : Nat} (op : VOp) (s1 s2 s3 : Bool) (w3 : Nat) (latency : Nat)
    (r0 : Nat → BitVec (rWidth op w1 w2)) (arg1 : Nat → BitVec w1) (arg2 : Nat → BitVec w2) (t : Nat) : Option (BitVec w3) :=
  if latency ≠ 0 then some (binaryOut op s1 s2 s3 w3 latency r0 arg1 arg2 t)
  else combBinary op s1 s2 s3 w3 (arg1 t) (arg2 t)

end Verif.Hw
