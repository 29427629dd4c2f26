import Verif.Vlog.Spec
import Verif.Flow.Props
/-
What it means to run the circuit with a library of Verilog modules behind its external modules.
-/
namespace Verif.Vlog
open Verif.Hw Verif.Flow

/-- Names of the argument ports of an external module (DFCIRToFIRRTLPass.cpp:324-374). -/
def argNames : List String := ["arg1", "arg2"]

/-- The ports of an external module: name, whether an output, width (DFCIRToFIRRTLPass.cpp:324-374, 404-437). -/
def extPorts (m : Module) : List (String × Bool × Nat) :=
  ("res1", true, m.res.width) :: ((argNames.zip m.args).map fun p => (p.1, false, p.2.width)) ++ [("clk", false, 1)]

/-- The wires `xs` are connected to the inputs `names`, of types `tys`, of a module with stores `ρ`: as `firrtl.connect` does it, bit for bit. -/
def Wired (ρ : Nat → Store) : List FTy → List String → List (Nat → FVal) → Prop
  | [], _, [] => True
  | ty :: tys, n :: ns, x :: xs => (∀ t, ∃ z, conn ty (x t) = some z ∧ (ρ t).vec n = z.n % 2 ^ ty.width) ∧ Wired ρ tys ns xs
  | _, _, _ => False

/-- With inputs `xs` the Verilog module `a`, which stands for the external module `m`, can output `y`: it is legal, has the ports the instance
expects, and has a run with these inputs and that output. -/
structure InstRun (a : Mod) (m : Module) (xs : List (Nat → FVal)) (y : Nat → FVal) : Prop where
  legal : Legal a
  ports : (a.ports.map fun p => (p.name, p.output, p.width)).Perm (extPorts m)
  run : ∃ ρ, Run a ρ ∧ Wired ρ m.args argNames xs ∧ ∀ t, y t = typed m.res ((ρ t).vec "res1")

/-- `σ v t` is the value on wire `v` in clock cycle `t` of a run of the circuit together with the Verilog modules `as`: every instance is an instance
of the module of that name; the other operations are FIRRTL's. -/
def LibRun (as : List Mod) (cells : Nat → Cell) (size : Nat) (port : String → Nat → Nat) (oob : FVal → List FVal → FVal) (σ : Nat → Nat → FVal) : Prop :=
  ∀ v < size, cells v ≠ .gone →
    (∀ m args, cells v = .inst m args → ∃ a ∈ as, a.name = String.ofList m.name ∧ InstRun a m (args.map σ) (σ v)) ∧
    ((∀ m args, cells v ≠ .inst m args) → ∀ t, cellOut port oob (fun _ => 0) (cells v) σ t = some (σ v t))

/-- `ms` are the external modules of the circuit: those the instances refer to, each once. -/
def ModulesOf (cells : Nat → Cell) (size : Nat) (ms : List Module) : Prop :=
  (ms.map Module.name).Nodup ∧ ∀ m, m ∈ ms ↔ ∃ v < size, ∃ args, cells v = .inst m args

open Verif.Dfcxx

/-- The circuit together with the Verilog modules `as` computes the streams of the kernel (`Flow.Computes` with `LibRun` for `CircuitRun`; the
registers are those of the modules). -/
def LibComputes (V : Nat → NodeV) (nodes : List Nat) (cells : Nat → Cell) (size : Nat) (as : List Mod) : Prop :=
  ∃ (wire : Nat → Nat) (delay : Nat → Nat),
    (∀ n ∈ nodes, (V n).op = .OUT → wire n < size ∧ ∃ s, cells (wire n) = .output (V n).name (convertType (hwTy (V n).ty)) (some s)) ∧
    ∀ (port : String → Nat → Nat) (oob : FVal → List FVal → FVal), PortsOK V nodes port → OobOK oob →
      (∃ σ, LibRun as cells size port oob σ) ∧
      ∀ σ, LibRun as cells size port oob σ → ∀ n ∈ nodes, (V n).op = .OUT → ∀ t a : Nat, StreamVal V port n t a →
        σ (wire n) (delay n + t) = ⟨(V n).ty.isSigned, width (V n).ty, a⟩

/-- The same for the streams as the hardware of the operators defines them (C68). -/
def LibHwComputes (V : Nat → NodeV) (nodes : List Nat) (cells : Nat → Cell) (size : Nat) (as : List Mod) : Prop :=
  ∃ (wire : Nat → Nat) (delay : Nat → Nat),
    (∀ n ∈ nodes, (V n).op = .OUT → wire n < size ∧ ∃ s, cells (wire n) = .output (V n).name (convertType (hwTy (V n).ty)) (some s)) ∧
    ∀ (port : String → Nat → Nat) (oob : FVal → List FVal → FVal), PortsOK V nodes port → OobOK oob →
      (∃ σ, LibRun as cells size port oob σ) ∧
      ∀ σ, LibRun as cells size port oob σ → ∀ n ∈ nodes, (V n).op = .OUT → ∀ t a : Nat, HwVal V port n t a →
        σ (wire n) (delay n + t) = ⟨(V n).ty.isSigned, width (V n).ty, a⟩

end Verif.Vlog
