import Verif.Sched.Model
/-
Specification side for the scheduling properties: well-formed kernels, the stream meaning of a kernel and the
cycle-accurate meaning of the scheduled netlist.  Neither mentions schedules or buffers.
-/
namespace Verif.Sched

/-- A kernel as the front end produces it: operands precede users, no latency operations yet, offsets fit
`int32_t`. -/
structure WF (P : Prog) : Prop where
  refs   : ∀ i < P.size, ∀ r ∈ (P.defn i).refs, r < i
  fresh  : ∀ i < P.size, (∀ s n, P.defn i ≠ .latency s n) ∧ P.defn i ≠ .erased
  range  : ∀ i < P.size, ∀ s k, P.defn i = .offset s k → -(2^31 : Int) ≤ k ∧ k < 2^31

/-- Interpretation: the function computed by each operation, the input streams, and the values of constants and
scalars. -/
structure Interp (α : Type) where
  fn  : Nat → List α → α
  inp : Nat → Int → α
  cst : Nat → α

/-- `Sem P I v t a`: element number `t` of the stream denoted by value `v` is `a`.  Streams start at element 0;
`offset k` denotes the element `k` places later (earlier when negative).  An operation has a value as soon as those of its
operands that determine it have one (`K j`: the known value of operand `j`): a multiplexer does not need the alternatives it
does not select. -/
inductive Sem {α : Type} (P : Prog) (I : Interp α) : Nat → Int → α → Prop
  | stream {v t} (h : P.defn v = .stream) (ht : 0 ≤ t) : Sem P I v t (I.inp v t)
  | scalar {v t} (h : P.defn v = .scalar) : Sem P I v t (I.cst v)
  | const {v t} (h : P.defn v = .const) : Sem P I v t (I.cst v)
  | output {v s t a} (h : P.defn v = .output (some s)) (hs : Sem P I s t a) : Sem P I v t a
  | offset {v s k t a} (h : P.defn v = .offset s k) (hs : Sem P I s (t + k) a) : Sem P I v t a
  | node {v args t a} (K : Nat → Option α) (h : P.defn v = .node args) (ht : 0 ≤ t)
      (ha : ∀ j s b, args[j]? = some s → K j = some b → Sem P I s t b)
      (hf : ∀ full : List α, full.length = args.length → (∀ j b, K j = some b → j < args.length → full[j]? = some b) →
        I.fn v full = a) : Sem P I v t a

/-- When all operands are defined, the operation yields its function's value. -/
theorem Sem.strict {α : Type} {P : Prog} {I : Interp α} {v : Nat} {args : List Nat} {t : Int} (vals : Nat → α)
    (h : P.defn v = .node args) (ht : 0 ≤ t) (ha : ∀ s ∈ args, Sem P I s t (vals s)) :
    Sem P I v t (I.fn v (args.map vals)) := by
  refine .node (fun j => (args[j]?).map vals) h ht ?_ ?_
  · intro j s b hj hb
    rw [hj] at hb; cases hb
    exact ha s (List.mem_of_getElem? hj)
  · intro full hl hk
    congr 1
    refine List.ext_getElem (by simp [hl]) ?_
    intro j h1 h2
    simp only [List.length_map] at h2
    have := hk j (vals args[j]) (by simp [List.getElem?_eq_getElem h2]) h2
    rw [List.getElem?_eq_getElem h1] at this
    simpa using this

/-- `σ v c` is the value of wire `v` at clock cycle `c ≥ 0` of the netlist `P`, where operation `v` is a pipeline of
`lat v` stages and `latency n` a delay line of `n` registers.  Registers hold arbitrary values at start-up. -/
def HwRun {α : Type} (P : Prog) (I : Interp α) (lat : Nat → Int) (σ : Nat → Int → α) : Prop :=
  ∀ v < P.size, match P.defn v with
    | .stream => ∀ c, 0 ≤ c → σ v c = I.inp v c
    | .scalar | .const => ∀ c, 0 ≤ c → σ v c = I.cst v
    | .output (some s) => ∀ c, 0 ≤ c → σ v c = σ s c
    | .node args => ∀ c, lat v ≤ c → σ v c = I.fn v (args.map fun s => σ s (c - lat v))
    | .latency s n => ∀ c, n ≤ c → σ v c = σ s (c - n)
    | .offset s _ => ∀ c, 0 ≤ c → σ v c = σ s c
    | _ => True

/-- No offset operation is left. -/
def NoOffsets (P : Prog) : Prop := ∀ i < P.size, ∀ s k, P.defn i ≠ .offset s k

/-- `T` is a schedule of `P`: stream inputs start at 0 and no dependency is violated; `L` gives each operation's
latency. Dependencies are read off the program: `dep x n k` means operation `n` uses element `t + k` of
operation `x`'s stream to compute element `t`. -/
inductive Reads (P : Prog) : Nat → Nat → Int → Prop
  | here {v} (h : (P.defn v).isNode) (hn : ∀ s, P.defn v ≠ .output (some s)) : Reads P v v 0
  | out {v s x k} (h : P.defn v = .output (some s)) (hr : Reads P s x k) : Reads P v x k
  | off {v s x j k} (h : P.defn v = .offset s j) (hr : Reads P s x k) : Reads P v x (j + k)

/-- Operation `n` uses element `t + k` of operation `x`'s stream to compute element `t`. -/
def Dep (P : Prog) (x n : Nat) (k : Int) : Prop :=
  (P.defn n).isNode ∧ ∃ s ∈ (P.defn n).refs, Reads P s x k

/-- A schedule meets all dependencies with non-negative start times, inputs starting at 0. -/
structure Schedule (P : Prog) (lat T : Nat → Int) : Prop where
  nonneg : ∀ n, 0 ≤ T n
  input  : ∀ n < P.size, P.defn n = .stream → T n = 0
  dep    : ∀ x n k, n < P.size → Dep P x n k → T x + lat x + k ≤ T n

/-- Latencies as `applyConfig` leaves them: non-negative, 0 for inputs, constants and outputs. -/
structure LatOk (P : Prog) (lat : Nat → Int) : Prop where
  nonneg : ∀ n, 0 ≤ lat n
  io     : ∀ n, (∀ args, P.defn n ≠ .node args) → lat n = 0

/-- An output whose value is also read inside the kernel. -/
def ReadOutput (P : Prog) (o : Nat) : Prop :=
  (P.defn o).isOutput ∧ ∃ n < P.size, o ∈ (P.defn n).refs

end Verif.Sched
