import Verif.Flow.Spec
import Verif.Sched.Model
import Verif.Hw.Lower
import Verif.Hw.Stubs
/-
Model of the whole back end: the DFCIR block as the scheduler sees it, and the conversion of the scheduled block to a FIRRTL
circuit (/repo/src/model/dfcir/lib/dfcir/passes/DFCIRToFIRRTLPass.cpp), with the meaning of the circuit.
-/
namespace Verif.Flow
open Verif.Dfcxx Verif.Hw

/-! ### The DFCIR block -/

/-- An operation with a result. -/
structure OpInfo where
  kind : DKind
  ty : DFType
  attr : DAttr
  operands : List Nat
  deriving DecidableEq, Repr

/-- The operations with results of a block, in order; their positions are the SSA value numbers. -/
def opsOf (stmts : List DStmt) : List OpInfo :=
  stmts.filterMap fun s => match s with
    | .op k ty attr operands => some ⟨k, ty.ty, attr, operands⟩
    | .connect _ _ => none

/-- `Utils::findConnect` as used in DFCIRGraph.h:132-134 and DFCIRScheduleUtils.cpp:56-63, 110-118: the source of the
`dfcir.connect` whose destination is value `d`. -/
def connectedTo (stmts : List DStmt) (d : Nat) : Option Nat :=
  stmts.findSome? fun s => match s with
    | .connect d' src => if d' = d then some src else none
    | .op .. => none

/-- The block as the scheduling passes see it (DFCIRScheduleUtils.cpp:71-157). -/
def progOf (stmts : List DStmt) : Sched.Prog where
  size := (opsOf stmts).length
  defn := fun v => match (opsOf stmts)[v]? with
    | none => .erased
    | some o => match o.kind with
      | .input => .stream
      | .scalarInput => .scalar
      | .constant => .const
      | .output | .scalarOutput => .output (connectedTo stmts v)
      | .offset => match o.operands, o.attr with
        | [s], .ints [k] => .offset s k
        | _, _ => .erased
      | _ => .node o.operands

/-! ### Conversion to FIRRTL -/

/-- dfcir_builder.cpp:56-74: the data types of DFCxx in the dialect. -/
def hwTy : DFType → Hw.Ty
  | .fixed s i f => .fixed s i f
  | .float e f => .float e f
  | .rawBits b => .bits b

/-- Result types of the operations of the block before scheduling. -/
def opTy (ops : List OpInfo) (v : Nat) : DFType :=
  match ops[v]? with
  | some o => o.ty
  | none => .rawBits 0

/-- Type of value `v` of a scheduled block, given the types of the original values: a `dfcir.latency` has the type of the value it
buffers (DFCIRGraph.h:174-178).  `fuel` bounds the chain of buffers. -/
def valTyF {α : Type} (base : Nat → α) (P : Sched.Prog) : (fuel : Nat) → Nat → α
  | 0, v => base v
  | fuel + 1, v => match P.defn v with
    | .latency s _ => valTyF base P fuel s
    | _ => base v

def valTy {α : Type} (base : Nat → α) (P : Sched.Prog) (v : Nat) : α := valTyF base P (v + 1) v

/-- Operations converted by `SchedulableOpConversionPattern` (DFCIRToFIRRTLPass.cpp:516-527, 683-700). -/
def unitOf : DKind → Option UnitKind
  | .add => some .add
  | .sub => some .sub
  | .mul => some .mul
  | .div => some .div
  | .neg => some .neg
  | .less => some .less
  | .lessEq => some .lesseq
  | .greater => some .greater
  | .greaterEq => some .greatereq
  | .eq => some .eq
  | .notEq => some .neq
  | .cast => some .cast
  | _ => none

/-- The unit or buffer an operation is converted to. -/
def hwOpOf (ops : List OpInfo) (P : Sched.Prog) (lat : Nat → Int) (v : Nat) : Option HwOp :=
  match P.defn v with
  | .latency _ n => some (.fifo (hwTy (valTy (opTy ops) P v)) n)
  | .node args => match ops[v]? with
    | some o => (unitOf o.kind).map fun k => .unit k (args.map fun a => hwTy (valTy (opTy ops) P a)) (hwTy o.ty) (lat v)
    | none => none
  | _ => none

/-- The external modules of the units and buffers, found or created in the order `blk` of the block. -/
def instances (ops : List OpInfo) (P : Sched.Prog) (lat : Nat → Int) (blk : List Nat) : List (Nat × Module) :=
  let l := blk.filterMap fun v => (hwOpOf ops P lat v).map fun o => (v, o)
  (l.map Prod.fst).zip (convertAll [] (l.map Prod.snd)).2

/-- FIRRTL operations of the converted kernel. -/
inductive Cell where
  | input (name : String) (ty : FTy)
  | output (name : String) (ty : FTy) (src : Option Nat)
  | const (ty : FTy) (value : Nat)
  | inst (m : Module) (args : List Nat)
  | and (ty : FTy) (a b : Nat)
  | or (ty : FTy) (a b : Nat)
  | xor (ty : FTy) (a b : Nat)
  | not (ty : FTy) (a : Nat)
  | shl (a k : Nat)
  | shr (a k : Nat)
  | mux (c : Nat) (vars : List Nat)
  | bits (a : Nat) (left right : Int)
  | cat (a b : Nat)
  | gone
  deriving DecidableEq, Repr

/-- The conversion patterns: ports (lines 138-243), output connection (lines 839-857), constants (273-311), units and buffers
(485-500), bitwise operations (530-681), shifts (702-837), multiplexers (859-899), bit ranges (901-937), concatenation (939-963).
`gone`: erased, or not a well-formed operation. -/
def cellOf (ops : List OpInfo) (P : Sched.Prog) (mods : List (Nat × Module)) (v : Nat) : Cell :=
  match P.defn v with
  | .latency s _ => match mods.lookup v with
    | some m => .inst m [s]
    | none => .gone
  | .stream | .scalar => match ops[v]? with
    | some ⟨_, ty, .name s, _⟩ => .input s (convertType (hwTy ty))
    | _ => .gone
  | .output src => match ops[v]? with
    | some ⟨_, ty, .name s, _⟩ => .output s (convertType (hwTy ty)) src
    | _ => .gone
  | .const => match ops[v]? with
    | some ⟨_, ty, .const _ c, _⟩ => .const (convertType (hwTy ty)) c
    | _ => .gone
  | .node args => match ops[v]? with
    | none => .gone
    | some o => match o.kind, args, o.attr with
      | .and, [a, b], _ => .and (convertType (hwTy o.ty)) a b
      | .or, [a, b], _ => .or (convertType (hwTy o.ty)) a b
      | .xor, [a, b], _ => .xor (convertType (hwTy o.ty)) a b
      | .not, [a], _ => .not (convertType (hwTy o.ty)) a
      | .shl, [a], .ints [k] => .shl a k.toNat
      | .shr, [a], .ints [k] => .shr a k.toNat
      | .mux, c :: vars, _ => .mux c vars
      | .bits, [a], .ints [l, r] => .bits a l r
      | .cat, [a, b], _ => .cat a b
      | _, _, _ => match unitOf o.kind, mods.lookup v with
        | some _, some m => .inst m args
        | _, _ => .gone
  | _ => .gone

/-- The converted kernel: one cell per value. -/
def circuitOf (ops : List OpInfo) (P : Sched.Prog) (lat : Nat → Int) (blk : List Nat) (v : Nat) : Cell :=
  cellOf ops P (instances ops P lat blk) v

/-! ### Meaning of the circuit

FIRRTL and Verilog semantics, not code of the repository.  `none` means that the FIRRTL verifier (or the Verilog compiler) rejects the
operation. -/

def ftySigned : FTy → Bool
  | .sint _ => true
  | .uint _ => false

/-- A value of a FIRRTL type. -/
def typed (ty : FTy) (n : Nat) : FVal := ⟨ftySigned ty, ty.width, n⟩

/-- `firrtl.connect`: same signedness, the destination at least as wide; the value is extended. -/
def conn (ty : FTy) (x : FVal) : Option FVal :=
  if x.sgn = ftySigned ty ∧ x.w ≤ ty.width then some (x.pad ty.width) else none

/-- The stream seen by a port: what is connected to it. -/
def portStream (ty : FTy) (x : Nat → FVal) (t : Nat) : BitVec ty.width := BitVec.ofNat _ ((conn ty (x t)).getD (typed ty 0)).n

/-- Output of an instance of module `m` in cycle `t`: the stub generator's module for its name and ports; `reg` are the power-up
contents of its registers. -/
def instOut (m : Module) (reg : Nat → Nat) (xs : List (Nat → FVal)) (t : Nat) : Option FVal :=
  match stubOf m.name, m.args, xs with
  | some .fifo, [ta], [x] =>
    if (conn ta (x t)).isSome then
      some (typed m.res (fifoOut m.latency (fun i => BitVec.ofNat ta.width (reg i)) (portStream ta x) t).toNat)
    else none
  | some .cast, [ta], [x] =>
    if (conn ta (x t)).isSome then
      some (typed m.res (castModule m.res.width (ftySigned m.res) m.latency (fun i => BitVec.ofNat ta.width (reg i))
        (portStream ta x) t).toNat)
    else none
  | some (.binary op), [ta, tb], [x, y] =>
    if (conn ta (x t)).isSome ∧ (conn tb (y t)).isSome then
      (binaryModule op (ftySigned ta) (ftySigned tb) (ftySigned m.res) m.res.width m.latency
        (fun i => BitVec.ofNat _ (reg i)) (portStream ta x) (portStream tb y) t).map fun r => typed m.res r.toNat
    else none
  | _, _, _ => none

/-- FIRRTL bitwise primitives: operands of equal signedness, the result unsigned of the larger width; the conversion gives the result type
explicitly, so the verifier compares it with the inferred one.  (Signed operands are sign-extended in FIRRTL; as the conversion then asks
for a signed result, this case is always rejected.) -/
def bitPrim (f : Nat → Nat → Nat) (ty : FTy) (a b : FVal) : Option FVal :=
  if a.sgn = b.sgn ∧ ty = .uint (max a.w b.w) ∧ a.sgn = false then some ⟨false, max a.w b.w, f a.n b.n⟩ else none

/-- Output of a cell in cycle `t`.  `port`: values on the input ports; `oob`: what a multiplexer outputs for a select beyond its
alternatives, which FIRRTL leaves open. -/
def cellOut (port : String → Nat → Nat) (oob : FVal → List FVal → FVal) (reg : Nat → Nat) (c : Cell) (σ : Nat → Nat → FVal)
    (t : Nat) : Option FVal :=
  match c with
  | .input name ty => some (typed ty (port name t))
  | .output _ ty (some s) => conn ty (σ s t)
  | .output _ _ none => none
  | .const ty n => some (typed ty n)
  | .inst m args => instOut m reg (args.map σ) t
  | .and ty a b => bitPrim (· &&& ·) ty (σ a t) (σ b t)
  | .or ty a b => bitPrim (· ||| ·) ty (σ a t) (σ b t)
  | .xor ty a b => bitPrim (· ^^^ ·) ty (σ a t) (σ b t)
  | .not ty a => if ty = .uint (σ a t).w then some ⟨false, (σ a t).w, 2 ^ (σ a t).w - 1 - (σ a t).n⟩ else none
  | .shl a k => lowerShl (σ a t) k
  | .shr a k => some (lowerShr (σ a t) k)
  | .mux c vars =>
    match lowerMux (σ c t) (vars.map fun v => σ v t) with
    | some x => some x
    | none => some (oob (σ c t) (vars.map fun v => σ v t))
  | .bits a l r => if l < 0 ∨ r < 0 then none else lowerBits (σ a t) l.toNat r.toNat
  | .cat a b => lowerCat (σ a t) (σ b t)
  | .gone => none

/-- `σ v t` is the value on wire `v` in clock cycle `t` of a run of the circuit, with power-up register contents `reg v`. -/
def CircuitRun (cells : Nat → Cell) (size : Nat) (port : String → Nat → Nat) (oob : FVal → List FVal → FVal)
    (reg : Nat → Nat → Nat) (σ : Nat → Nat → FVal) : Prop :=
  ∀ v < size, cells v ≠ .gone → ∀ t, cellOut port oob (reg v) (cells v) σ t = some (σ v t)

end Verif.Flow
