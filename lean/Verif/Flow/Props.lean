import Verif.Flow.Core
import Verif.Flow.Agree
import Verif.Dfcxx.WorldExamples
/-
C58: compiling a kernel yields a circuit that computes the kernel's streams, for all three scheduling passes and for every kernel the API
can build within the supported operators.
-/
namespace Verif.Flow
open Verif.Dfcxx Verif.Hw Verif.Sched

/-! ### Latencies from the configuration file -/

/-- The dialect operations as `applyConfig` distinguishes them. -/
def cfgKind : DKind → Option Config.Kind
  | .add => some .add
  | .sub => some .sub
  | .mul => some .mul
  | .div => some .div
  | .neg => some .neg
  | .less => some .less
  | .lessEq => some .lessEq
  | .greater => some .greater
  | .greaterEq => some .greaterEq
  | .eq => some .eq
  | .notEq => some .neq
  | .cast => some .cast
  | .and => some .and
  | .or => some .or
  | .xor => some .xor
  | .not => some .not
  | .mux => some .mux
  | .shl => some .shl
  | .shr => some .shr
  | .bits => some .bits
  | .cat => some .cat
  | _ => none

def isFloatTy : DFType → Bool
  | .float _ _ => true
  | _ => false

/-- `applyConfig` over the nodes of the scheduling graph (DFCIRScheduleUtils.cpp:13-43); inputs, outputs and constants are not
`Scheduled`, and latency operations are inserted later. -/
def latOf (file : Option Config.JsonDoc) (ops : List OpInfo) (v : Nat) : Int :=
  match ops[v]? with
  | some o => match cfgKind o.kind with
    | some k => Config.unitLatency file k (isFloatTy o.ty)
    | none => 0
  | none => 0

/-- The configuration entry of an operator. -/
def unitKindOf : OpType → Option Config.Kind
  | .ADD => some .add
  | .SUB => some .sub
  | .MUL => some .mul
  | .DIV => some .div
  | .NEG => some .neg
  | .LESS => some .less
  | .LESSEQ => some .lessEq
  | .GREATER => some .greater
  | .GREATEREQ => some .greaterEq
  | .EQ => some .eq
  | .NEQ => some .neq
  | _ => none

/-- The latency of a node's operation under a configuration file: that of its unit, otherwise 0 (specification). -/
def nodeLatency (file : Option Config.JsonDoc) (v : NodeV) : Nat :=
  match unitKindOf v.op with
  | some k => Config.unitLatency file k (isFloatTy v.ty)
  | none => 0

theorem latOf_node (file : Option Config.JsonDoc) {V : Nat → NodeV} {order : List Nat} {n : Nat} (hn : n ∈ order) (hc : Complete V n) :
    latOf file (opsOf (block V order)) (order.idxOf n) = nodeLatency file (V n) := by
  have hop := ops_at V hn
  have hty := opTy_at V hn hc
  simp only [opTy, hop] at hty
  simp only [latOf, hop, hty, nodeLatency]
  simp only [opInfo, exactOp]
  have hnone := hc.notNone
  have hcast : Config.unitLatency file .cast (isFloatTy (V n).ty) = 0 := by
    simp [Config.unitLatency, Config.applyConfig, Config.Kind.scheduled, Config.resolveInternalOpType, Config.processorConfig,
      Config.LatMap.put]
  cases ho : (V n).op
  case CONST =>
    obtain ⟨c, hk⟩ := hc.const ho
    simp [binaryKind, unaryKind, ho, hk, unitKindOf, cfgKind]
  case MUX =>
    obtain ⟨hd, c, alts, he⟩ := hc.mux ho
    simp [binaryKind, unaryKind, ho, he, unitKindOf, cfgKind, Config.unitLatency, Config.applyConfig, Config.Kind.scheduled]
  case IN => by_cases hk : (V n).kind = .stream <;> simp [binaryKind, unaryKind, ho, hk, unitKindOf, cfgKind]
  case OUT => by_cases hk : (V n).kind = .stream <;> simp [binaryKind, unaryKind, ho, hk, unitKindOf, cfgKind]
  case NONE => exact absurd ho hnone
  case OFFSET =>
    obtain ⟨⟨o, hd⟩, -⟩ := hc.offset ho
    simp [binaryKind, unaryKind, ho, hd, unitKindOf, cfgKind]
  case SHL =>
    obtain ⟨k, hd⟩ := hc.shift (by simp [ho])
    simp [binaryKind, unaryKind, ho, hd, unitKindOf, cfgKind, Config.unitLatency, Config.applyConfig, Config.Kind.scheduled]
  case SHR =>
    obtain ⟨k, hd⟩ := hc.shift (by simp [ho])
    simp [binaryKind, unaryKind, ho, hd, unitKindOf, cfgKind, Config.unitLatency, Config.applyConfig, Config.Kind.scheduled]
  case BITS =>
    obtain ⟨l, r, hd⟩ := hc.bits ho
    simp [binaryKind, unaryKind, ho, hd, unitKindOf, cfgKind, Config.unitLatency, Config.applyConfig, Config.Kind.scheduled]
  case CAST => simp [binaryKind, unaryKind, ho, unitKindOf, cfgKind, hcast]
  case NOT => simp [binaryKind, unaryKind, ho, unitKindOf, cfgKind, Config.unitLatency, Config.applyConfig, Config.Kind.scheduled]
  case AND => simp [binaryKind, unitKindOf, cfgKind, Config.unitLatency, Config.applyConfig, Config.Kind.scheduled]
  case OR => simp [binaryKind, unitKindOf, cfgKind, Config.unitLatency, Config.applyConfig, Config.Kind.scheduled]
  case XOR => simp [binaryKind, unitKindOf, cfgKind, Config.unitLatency, Config.applyConfig, Config.Kind.scheduled]
  case CAT => simp [binaryKind, unitKindOf, cfgKind, Config.unitLatency, Config.applyConfig, Config.Kind.scheduled]
  case NEG => simp [binaryKind, unaryKind, ho, unitKindOf, cfgKind]
  all_goals simp [binaryKind, unitKindOf, cfgKind]

theorem latOf_ok (file : Option Config.JsonDoc) {V : Nat → NodeV} {order : List Nat} (hc : ∀ n ∈ order, Complete V n) :
    LatencyOK V order (latOf file (opsOf (block V order))) := by
  refine ⟨fun v => ?_, fun n hn hu => ?_, fun v hv => ?_⟩
  · unfold latOf
    split
    · split
      · exact Int.natCast_nonneg _
      · exact Int.le_refl _
    · exact Int.le_refl _
  · rw [latOf_node file hn (hc n hn)]
    unfold nodeLatency
    have : unitKindOf (V n).op = none := by
      cases ho : (V n).op <;> first
        | rfl
        | (exfalso; apply hu; simp [isUnitOp, ho]; done)
    rw [this]; rfl
  · have hlen : (opsOf (block V order)).length = order.length := progOf_size V order
    have : (opsOf (block V order))[v]? = none := List.getElem?_eq_none (by rw [hlen]; exact hv)
    simp [latOf, this]

/-! ### What a compiled kernel must do -/

/-- Kernels the back end handles, in terms of their graph: supported operators and types, offsets that fit 32 bits, at most 128
operands unless all but the first are constants, no output read inside the kernel, no two nodes of the same width with different signedness (their buffers would be confused,
C38). -/
structure Handled (V : Nat → NodeV) (L : Nat → Nat) (nodes : List Nat) : Prop where
  supp  : ∀ n ∈ nodes, Supported V (L n) n
  offs  : ∀ n ∈ nodes, ∀ k, (V n).data = .offset k → -(2^31 : Int) ≤ k ∧ k < 2^31
  few   : ∀ n ∈ nodes, (V n).srcs.length ≤ 128 ∨ ∀ s ∈ (V n).srcs.tail, (V s).op = .CONST
  reads : ∀ n ∈ nodes, ∀ s ∈ (V n).srcs, (V s).op ≠ .OUT
  signs : ∀ m ∈ nodes, ∀ n ∈ nodes, width (V m).ty = width (V n).ty → (V m).ty.isSigned = (V n).ty.isSigned

/-- Kernels hardware is produced for: the same with `Produced` for `Supported`, and without the condition on signedness. -/
structure HwHandled (V : Nat → NodeV) (L : Nat → Nat) (nodes : List Nat) : Prop where
  prod  : ∀ n ∈ nodes, Produced V (L n) n
  offs  : ∀ n ∈ nodes, ∀ k, (V n).data = .offset k → -(2^31 : Int) ≤ k ∧ k < 2^31
  few   : ∀ n ∈ nodes, (V n).srcs.length ≤ 128 ∨ ∀ s ∈ (V n).srcs.tail, (V s).op = .CONST
  reads : ∀ n ∈ nodes, ∀ s ∈ (V n).srcs, (V s).op ≠ .OUT

/-- The circuit `cells` computes the streams of the kernel as its hardware defines them: `Computes` with `HwVal` for `StreamVal`. -/
def HwComputes (V : Nat → NodeV) (nodes : List Nat) (cells : Nat → Cell) (size : Nat) : Prop :=
  ∃ (wire : Nat → Nat) (delay : Nat → Nat),
    (∀ n ∈ nodes, (V n).op = .OUT → wire n < size ∧ ∃ s, cells (wire n) = .output (V n).name (convertType (hwTy (V n).ty)) (some s)) ∧
    ∀ (port : String → Nat → Nat) (oob : FVal → List FVal → FVal) (reg : Nat → Nat → Nat),
      PortsOK V nodes port → OobOK oob →
      (∃ σ, CircuitRun cells size port oob reg σ) ∧
      ∀ σ, CircuitRun cells size port oob reg σ → ∀ n ∈ nodes, (V n).op = .OUT → ∀ t a : Nat, HwVal V port n t a →
        σ (wire n) (delay n + t) = ⟨(V n).ty.isSigned, width (V n).ty, a⟩

/-- The circuit `cells` computes the streams of the kernel: for every way of feeding its input ports with values of their types (scalar
inputs constantly), whatever the registers contain at power-up and whatever multiplexers do with selects out of range, the circuit has a
run, and in every run every output port `name` of the kernel shows element `t` of its stream, as far as it is defined, in cycle
`delay name + t`; the delay does not depend on the data. -/
def Computes (V : Nat → NodeV) (nodes : List Nat) (cells : Nat → Cell) (size : Nat) : Prop :=
  ∃ (wire : Nat → Nat) (delay : Nat → Nat),
    (∀ n ∈ nodes, (V n).op = .OUT → wire n < size ∧ ∃ s, cells (wire n) = .output (V n).name (convertType (hwTy (V n).ty)) (some s)) ∧
    ∀ (port : String → Nat → Nat) (oob : FVal → List FVal → FVal) (reg : Nat → Nat → Nat),
      PortsOK V nodes port → OobOK oob →
      (∃ σ, CircuitRun cells size port oob reg σ) ∧
      ∀ σ, CircuitRun cells size port oob reg σ → ∀ n ∈ nodes, (V n).op = .OUT → ∀ t a : Nat, StreamVal V port n t a →
        σ (wire n) (delay n + t) = ⟨(V n).ty.isSigned, width (V n).ty, a⟩

theorem fval_eq (ty : DFType) (a : Nat) : fval ty a = ⟨ty.isSigned, width ty, a⟩ := by
  simp [fval, typed, fty_signed, fty_width]

/-- Block orders of a scheduled kernel: every operation once. -/
def BlockOrder (X : Prog) (blk : List Nat) : Prop := blk.Nodup ∧ ∀ v, v ∈ blk ↔ v < X.size

theorem Compilable.computes {V : Nat → NodeV} {order nodes : List Nat} {lat : Nat → Int} (K : Compilable V order lat)
    (hperm : order.Perm nodes) {bs : List (Sched.Chan × Int)} (hbs : ∀ p ∈ bs, p.1 ∈ channels (progOf (block V order)))
    {X : Prog} (h : applySchedule (progOf (block V order)) bs = .ok X) (hno : NoOffsets X) {D : Nat → Int} (hD : ∀ v, 0 ≤ D v)
    (hT : ∀ (I : Sched.Interp Nat) (σ : Nat → Int → Nat), HwRun X I lat σ →
      ∀ v < (progOf (block V order)).size, ((progOf (block V order)).defn v).isNode → ∀ t, 0 ≤ t → ∀ a,
        Sem (progOf (block V order)) I v t a → σ v (D v + t) = a)
    {blk : List Nat} (hblk : BlockOrder X blk)
    (hmix : SignsByWidth V nodes ∨ NoMixedBuffers (opTy (opsOf (block V order))) X) :
    HwComputes V nodes (circuitOf (opsOf (block V order)) X lat blk) X.size := by
  have hsz : order.length ≤ X.size := by
    have hP := block_wf K.topo K.compl K.offs
    have := (applySchedule_tyInv (base := opTy (opsOf (block V order))) hP (progOf_beyond _) (offsets_keep_types K) hbs h).1.size
    rwa [progOf_size] at this
  refine ⟨order.idxOf, fun n => (D (order.idxOf n)).toNat, ?_, ?_⟩
  · intro n hn ho
    have hno := hperm.mem_iff.mpr hn
    exact ⟨Nat.lt_of_lt_of_le (List.idxOf_lt_length_iff.mpr hno) hsz, K.output_port hbs h blk hno ho⟩
  · intro port oob reg hp ho
    have hp' : PortsOK V order port := ⟨fun n hn => hp.fits n (hperm.mem_iff.mp hn), fun n hn => hp.scalar n (hperm.mem_iff.mp hn)⟩
    have hmix' : NoMixedBuffers (opTy (opsOf (block V order))) X := by
      rcases hmix with hm | hm
      · exact K.noMixed (fun m hm' n hn => hm m (hperm.mem_iff.mp hm') n (hperm.mem_iff.mp hn)) hbs h
      · exact hm
    obtain ⟨h1, h2⟩ := K.core hbs h hno hD hT hblk.1 hblk.2 hmix' hp' ho reg
    refine ⟨h1, fun σ hr n hn hop t a hs => ?_⟩
    rw [h2 σ hr n (hperm.mem_iff.mpr hn) (by simp [hop]) t a hs, fval_eq]

theorem HwHandled.compilable {V : Nat → NodeV} {order nodes : List Nat} {L : Nat → Nat} {lat : Nat → Int} (H : HwHandled V L nodes)
    (hperm : order.Perm nodes) (ht : TopoOrder V order) (hc : ∀ n ∈ order, Complete V n) (hl : LatencyOK V order lat)
    (hL : ∀ n ∈ order, lat (order.idxOf n) = L n) : Compilable V order lat := by
  refine ⟨ht, hc, fun n hn => ?_, hl, fun n hn => H.offs n (hperm.mem_iff.mp hn), fun n hn => H.few n (hperm.mem_iff.mp hn)⟩
  rw [hL n hn]
  exact H.prod n (hperm.mem_iff.mp hn)

theorem HwHandled.reads' {V : Nat → NodeV} {order nodes : List Nat} {L : Nat → Nat} (H : HwHandled V L nodes)
    (hperm : order.Perm nodes) : OutputsNotRead V order := fun n hn => H.reads n (hperm.mem_iff.mp hn)

theorem Handled.hw {V : Nat → NodeV} {L : Nat → Nat} {nodes : List Nat} (H : Handled V L nodes) (hc : ∀ n ∈ nodes, Complete V n) :
    HwHandled V L nodes :=
  ⟨fun n hn => supported_produced (hc n hn) (H.supp n hn), H.offs, H.few, H.reads⟩

/-- A circuit that computes the streams of the hardware computes the streams of the kernel, if all operators are supported. -/
theorem HwComputes.computes {V : Nat → NodeV} {L : Nat → Nat} {order nodes : List Nat} (hperm : order.Perm nodes)
    (ht : TopoOrder V order) (H : Handled V L nodes) {cells : Nat → Cell} {size : Nat} (h : HwComputes V nodes cells size) :
    Computes V nodes cells size := by
  obtain ⟨wire, delay, h1, h2⟩ := h
  refine ⟨wire, delay, h1, fun port oob reg hp ho => ?_⟩
  obtain ⟨g1, g2⟩ := h2 port oob reg hp ho
  refine ⟨g1, fun σ hr n hn hop t a hs => g2 σ hr n hn hop t a ?_⟩
  refine hwVal_of_streamVal (order := nodes) ?_ ?_ hs hn
  · intro m hm s hs
    exact hperm.mem_iff.mp (srcs_in_order ht (hperm.mem_iff.mpr hm) hs).1
  · exact fun m hm t vals r _ _ ho => supported_agree (H.supp m hm) vals ho

/-- A block that is not scheduled has no buffers. -/
theorem block_noMixed {V : Nat → NodeV} {order : List Nat} {lat : Nat → Int} (K : Compilable V order lat) :
    NoMixedBuffers (opTy (opsOf (block V order))) (progOf (block V order)) := by
  intro u v s s' n hu _ hd
  exfalso
  rw [progOf_size] at hu
  obtain ⟨hn, he⟩ := value_is_node K.topo.nodup hu
  generalize order[u] = m at hn he
  subst he
  rw [progOf_defn _ hn (K.compl m hn)] at hd
  unfold defOf at hd
  cases ho : (V m).op
  case IN => rw [ho] at hd; by_cases hk : (V m).kind = .stream <;> simp [hk] at hd
  case MUX => rw [ho] at hd; cases he : (V m).srcs <;> simp [he] at hd
  case OFFSET => rw [ho] at hd; simp only at hd; split at hd <;> simp at hd
  all_goals rw [ho] at hd; simp at hd

/-! ### The three scheduling passes -/

section
variable {F : FloatOps} {w : World} {g : KGraph} {G : TopSort.Graph Nat}

/-- **C68, ASAP scheduling.**  As C58, for every kernel hardware is produced for (`HwHandled`), with the values the hardware computes
(`HwVal`); buffers of the same width and depth must not mix signednesses (C38). -/
theorem asap_compile_hw (h : Hist F Proper World.init w) (hf : Finished w g) (he : Enumeration w g G)
    (file : Option Config.JsonDoc) (H : HwHandled w.view (fun n => nodeLatency file (w.view n)) g.nodes) :
    ∃ order prog, TopSort.topSort G = .ok order ∧ buildBody w.view order = .ok prog ∧
      ∀ bs, bs.Perm (buffersFor (progOf prog) (latOf file (opsOf prog)) (asap (progOf prog) (latOf file (opsOf prog))).time) →
        ∃ X, applySchedule (progOf prog) bs = .ok X ∧
          ∀ blk, BlockOrder X blk → (SignsByWidth w.view g.nodes ∨ NoMixedBuffers (opTy (opsOf prog)) X) →
            HwComputes w.view g.nodes (circuitOf (opsOf prog) X (latOf file (opsOf prog)) blk) X.size := by
  obtain ⟨order, h1, h2, h3, h4, -⟩ := finished_kernel_is_processable h hf he
  refine ⟨order, block w.view order, h1, buildBody_exact w.view order h3 h4, fun bs hbs => ?_⟩
  have K := H.compilable h2 h3 h4 (latOf_ok file h4) (fun n hn => latOf_node file hn (h4 n hn))
  have hP := block_wf K.topo K.compl K.offs
  have hsch := asap_meets_dependencies hP (latOf file (opsOf (block w.view order)))
  obtain ⟨X, g1, g2, -, g4⟩ := asap_pipeline_correct hP (block_small K.topo K.compl K.few) (latOk K)
    (fun o ho => absurd ho (block_readOutputs K.topo K.compl (H.reads' h2))) bs hbs
  refine ⟨X, g1, fun blk hblk hmix => ?_⟩
  exact K.computes h2 (fun p hp => (buffersFor_mem.1 (hbs.mem_iff.1 hp)).1) g1 g2
    (D := fun v => (asap (progOf (block w.view order)) (latOf file (opsOf (block w.view order)))).time v + latOf file (opsOf (block w.view order)) v)
    (fun v => by have a1 := hsch.nonneg v; have a2 := K.lats.nonneg v; omega) (fun I σ hr => g4 Nat I σ hr) hblk hmix

/-- **C68, linear programming, whatever the objective.**  Every vertex of the constraints will do, also if lp_solve had lost the objective (which is set,
DFCIRLinearSchedulerPass.cpp:132, before the columns it speaks of are added, DFCIRLPUtils.cpp:49-52). -/
theorem vertex_compile_hw (h : Hist F Proper World.init w) (hf : Finished w g) (he : Enumeration w g G)
    (file : Option Config.JsonDoc) (H : HwHandled w.view (fun n => nodeLatency file (w.view n)) g.nodes) :
    ∃ order prog, TopSort.topSort G = .ok order ∧ buildBody w.view order = .ok prog ∧
      ∀ x, Extreme (lpBuild (progOf prog) (latOf file (opsOf prog))) x →
      ∀ perm : List (Sched.Chan × Int) → List (Sched.Chan × Int), (∀ l, (perm l).Perm l) →
        ∃ r, lpRun (progOf prog) (latOf file (opsOf prog)) (.solved x) perm = .ok r ∧
          ∀ blk, BlockOrder r.prog blk → (SignsByWidth w.view g.nodes ∨ NoMixedBuffers (opTy (opsOf prog)) r.prog) →
            HwComputes w.view g.nodes (circuitOf (opsOf prog) r.prog (latOf file (opsOf prog)) blk) r.prog.size := by
  obtain ⟨order, h1, h2, h3, h4, -⟩ := finished_kernel_is_processable h hf he
  refine ⟨order, block w.view order, h1, buildBody_exact w.view order h3 h4, fun x hext perm hp => ?_⟩
  have K := H.compilable h2 h3 h4 (latOf_ok file h4) (fun n hn => latOf_node file hn (h4 n hn))
  have hP := block_wf K.topo K.compl K.offs
  have hsm := block_small K.topo K.compl K.few
  have hi := lp_vertex_integral hP hext
  have hsch := lp_schedule hP hext.1 hi
  have hbe := lpBuffers_eq hP hext.1 hi
  obtain ⟨X, g1, g2, -, g4⟩ := schedule_pipeline_correct hP hsm (latOk K) hsch
    (fun o ho => absurd ho (block_readOutputs K.topo K.compl (H.reads' h2)))
    (perm (lpBuffers (progOf (block w.view order)) (lpBuild (progOf (block w.view order)) (latOf file (opsOf (block w.view order)))) (.solved x)))
    (by rw [← hbe]; exact hp _)
  refine ⟨⟨X, 0⟩, by simp only [lpRun, g1], fun blk hblk hmix => ?_⟩
  refine K.computes h2 (bs := perm _) (fun p hp' => ?_) g1 g2
    (D := fun v => intTimes (progOf (block w.view order)) (latOf file (opsOf (block w.view order))) x v + latOf file (opsOf (block w.view order)) v)
    (fun v => by have a1 := hsch.nonneg v; have a2 := K.lats.nonneg v; omega) (fun I σ hr => g4 Nat I σ hr) hblk hmix
  have := (hp _).mem_iff.1 hp'
  rw [hbe] at this
  exact (buffersFor_mem.1 this).1

/-- **C68, linear programming.** -/
theorem lp_compile_hw (h : Hist F Proper World.init w) (hf : Finished w g) (he : Enumeration w g G)
    (file : Option Config.JsonDoc) (H : HwHandled w.view (fun n => nodeLatency file (w.view n)) g.nodes) :
    ∃ order prog, TopSort.topSort G = .ok order ∧ buildBody w.view order = .ok prog ∧
      ∀ x, Optimal (lpBuild (progOf prog) (latOf file (opsOf prog))) x → Extreme (lpBuild (progOf prog) (latOf file (opsOf prog))) x →
      ∀ perm : List (Sched.Chan × Int) → List (Sched.Chan × Int), (∀ l, (perm l).Perm l) →
        ∃ r, lpRun (progOf prog) (latOf file (opsOf prog)) (.solved x) perm = .ok r ∧
          ∀ blk, BlockOrder r.prog blk → (SignsByWidth w.view g.nodes ∨ NoMixedBuffers (opTy (opsOf prog)) r.prog) →
            HwComputes w.view g.nodes (circuitOf (opsOf prog) r.prog (latOf file (opsOf prog)) blk) r.prog.size := by
  obtain ⟨order, prog, g1, g2, g3⟩ := vertex_compile_hw h hf he file H
  exact ⟨order, prog, g1, g2, fun x _ hx perm hp => g3 x hx perm hp⟩

/-- **C68, combinational pipelining.**  Without stages nothing is asked of the buffers. -/
theorem comb_compile_hw (h : Hist F Proper World.init w) (hf : Finished w g) (he : Enumeration w g G)
    (H : HwHandled w.view (fun _ => 0) g.nodes) (hof : ∀ n ∈ g.nodes, (w.view n).op ≠ .OFFSET) :
    ∃ order prog, TopSort.topSort G = .ok order ∧ buildBody w.view order = .ok prog ∧
      ∀ (A : FloatArith) (stages : Nat), stages < 2^31 →
      ∀ perm : List (Sched.Chan × Int) → List (Sched.Chan × Int), (∀ l, (perm l).Perm l) →
      ∀ X, combPipeline A stages perm (progOf prog) = .ok X →
        ∀ blk, BlockOrder X blk → (stages = 0 ∨ SignsByWidth w.view g.nodes ∨ NoMixedBuffers (opTy (opsOf prog)) X) →
          HwComputes w.view g.nodes (circuitOf (opsOf prog) X (fun _ => 0) blk) X.size := by
  obtain ⟨order, h1, h2, h3, h4, -⟩ := finished_kernel_is_processable h hf he
  refine ⟨order, block w.view order, h1, buildBody_exact w.view order h3 h4, fun A stages hst perm hp X hX blk hblk hmix => ?_⟩
  have K : Compilable w.view order (fun _ => 0) := H.compilable h2 h3 h4
    ⟨fun _ => Int.le_refl _, fun _ _ _ => rfl, fun _ _ => rfl⟩ (fun n hn => rfl)
  have hP := block_wf K.topo K.compl K.offs
  have hsm := block_small K.topo K.compl K.few
  have hK : CombKernel (progOf (block w.view order)) := by
    refine ⟨?_, ?_⟩
    · intro i hi s k hd
      rw [progOf_size] at hi
      obtain ⟨hn, he⟩ := value_is_node h3.nodup hi
      generalize order[i] = n at hn he
      subst he
      rw [progOf_defn _ hn (h4 n hn)] at hd
      unfold defOf at hd
      cases ho : (w.view n).op
      case OFFSET => exact hof n (h2.mem_iff.mp hn) ho
      case IN => rw [ho] at hd; by_cases hk : (w.view n).kind = .stream <;> simp [hk] at hd
      case MUX => rw [ho] at hd; cases he : (w.view n).srcs <;> simp [he] at hd
      all_goals rw [ho] at hd; simp at hd
    · intro i hi r hr s hd
      exact block_readOutputs K.topo K.compl (H.reads' h2) (o := r) ⟨by rw [hd]; rfl, i, hi, hr⟩
  rcases Nat.eq_zero_or_pos stages with rfl | hs
  · rw [combPipeline, if_pos rfl] at hX
    cases hX
    obtain ⟨-, hoff⟩ := combChannels_total hP hK
    have hsch : Schedule (progOf (block w.view order)) (fun _ => 0) (fun _ => 0) := by
      refine ⟨fun _ => Int.le_refl _, fun _ _ _ => rfl, fun x n k hn hd => ?_⟩
      obtain ⟨c, hc, -, -, rfl⟩ := dep_chan hP hn hd
      rw [hoff c hc]
      exact Int.le_refl _
    have hnil : buffersFor (progOf (block w.view order)) (fun _ => 0) (fun _ => 0) = [] := by
      rw [List.eq_nil_iff_forall_not_mem]
      intro p hp'
      obtain ⟨a1, a2, a3, -⟩ := buffersFor_mem.1 hp'
      have := hoff _ a1
      simp [this] at a2
      exact a3 a2
    obtain ⟨X, g1, g2, -, g4⟩ := schedule_pipeline_correct hP hsm (latOk K) hsch
      (fun o ho => absurd ho (block_readOutputs K.topo K.compl (H.reads' h2))) [] (by rw [hnil])
    have e : X = progOf (block w.view order) := by
      have g1' := g1
      simp only [applySchedule, insertBuffers] at g1'
      rw [eraseOffsets_id (P := progOf (block w.view order)) hK.noOffset _ (Nat.le_refl _)] at g1'
      cases g1'; rfl
    subst e
    exact K.computes h2 (bs := []) (fun p hp' => by cases hp') g1 g2 (D := fun _ => 0) (fun _ => Int.le_refl _)
      (fun I σ hr v hv hnode t ht a ha => by have := g4 Nat I σ hr v hv hnode t ht a ha; simpa using this) hblk
      (.inr (block_noMixed K))
  obtain ⟨-, delay, -, d2, -, -, d5⟩ := comb_pipeline_balanced hP hsm hK A stages hs hst perm hp X hX
  rcases combPipeline_eq hP hK A stages hs hst perm with ⟨f, _, he⟩ | ⟨casc, hc, he⟩
  · rw [he] at hX; cases hX
  rw [he] at hX
  have hno := insertBuffers_noOffset _ hX hK.noOffset
  have hbs : ∀ p ∈ perm (buffersFor (progOf (block w.view order)) (fun _ => 0) (combDelay (progOf (block w.view order)) casc)),
      p.1 ∈ channels (progOf (block w.view order)) := fun p hp' => (buffersFor_mem.1 ((hp _).mem_iff.1 hp')).1
  have hsz : (progOf (block w.view order)).size ≤ X.size :=
    (insertBuffers_ranked _ hP.ranked (fun p hp' => (chan_lt hP (hbs p hp')).2) hX).2
  have hap : applySchedule (progOf (block w.view order))
      (perm (buffersFor (progOf (block w.view order)) (fun _ => 0) (combDelay (progOf (block w.view order)) casc))) = .ok X := by
    simp only [applySchedule, hX]
    rw [eraseOffsets_id hno _ hsz]
  exact K.computes h2 hbs hap hno (D := delay) (fun v => (d2 v).1) (fun I σ hr => d5 Nat I σ hr) hblk (hmix.resolve_left (by omega))

/-- **C58, ASAP scheduling.**  For every kernel built by any sensible history of API calls, finished and within what the back end
handles, for every latency configuration file, every enumeration of the hash sets: sorting, translation to DFCIR, ASAP scheduling with any
iteration order of the buffer map, and conversion to FIRRTL succeed, and the circuit, with the library modules generated for its units,
computes the streams of the kernel. -/
theorem asap_compile_computes (h : Hist F Proper World.init w) (hf : Finished w g) (he : Enumeration w g G)
    (file : Option Config.JsonDoc) (H : Handled w.view (fun n => nodeLatency file (w.view n)) g.nodes) :
    ∃ order prog, TopSort.topSort G = .ok order ∧ buildBody w.view order = .ok prog ∧
      ∀ bs, bs.Perm (buffersFor (progOf prog) (latOf file (opsOf prog)) (asap (progOf prog) (latOf file (opsOf prog))).time) →
        ∃ X, applySchedule (progOf prog) bs = .ok X ∧
          ∀ blk, BlockOrder X blk → Computes w.view g.nodes (circuitOf (opsOf prog) X (latOf file (opsOf prog)) blk) X.size := by
  obtain ⟨order, h1, h2, h3, h4, -⟩ := finished_kernel_is_processable h hf he
  obtain ⟨order', prog, g1, g2, g3⟩ := asap_compile_hw h hf he file (H.hw fun n hn => h4 n (h2.mem_iff.mpr hn))
  refine ⟨order', prog, g1, g2, fun bs hbs => ?_⟩
  obtain ⟨X, e1, e2⟩ := g3 bs hbs
  exact ⟨X, e1, fun blk hblk => (e2 blk hblk (.inl H.signs)).computes h2 h3 H⟩

/-- **C58, linear programming, whatever the objective.**  The same with the LP scheduler, for every vertex of the constraints the solver may answer. -/
theorem vertex_compile_computes (h : Hist F Proper World.init w) (hf : Finished w g) (he : Enumeration w g G)
    (file : Option Config.JsonDoc) (H : Handled w.view (fun n => nodeLatency file (w.view n)) g.nodes) :
    ∃ order prog, TopSort.topSort G = .ok order ∧ buildBody w.view order = .ok prog ∧
      ∀ x, Extreme (lpBuild (progOf prog) (latOf file (opsOf prog))) x →
      ∀ perm : List (Sched.Chan × Int) → List (Sched.Chan × Int), (∀ l, (perm l).Perm l) →
        ∃ r, lpRun (progOf prog) (latOf file (opsOf prog)) (.solved x) perm = .ok r ∧
          ∀ blk, BlockOrder r.prog blk →
            Computes w.view g.nodes (circuitOf (opsOf prog) r.prog (latOf file (opsOf prog)) blk) r.prog.size := by
  obtain ⟨order, h1, h2, h3, h4, -⟩ := finished_kernel_is_processable h hf he
  obtain ⟨order', prog, g1, g2, g3⟩ := vertex_compile_hw h hf he file (H.hw fun n hn => h4 n (h2.mem_iff.mpr hn))
  refine ⟨order', prog, g1, g2, fun x hx perm hp => ?_⟩
  obtain ⟨r, e1, e2⟩ := g3 x hx perm hp
  exact ⟨r, e1, fun blk hblk => (e2 blk hblk (.inl H.signs)).computes h2 h3 H⟩

/-- **C58, linear programming.**  The same with the LP scheduler, for every optimal extreme point the solver may answer. -/
theorem lp_compile_computes (h : Hist F Proper World.init w) (hf : Finished w g) (he : Enumeration w g G)
    (file : Option Config.JsonDoc) (H : Handled w.view (fun n => nodeLatency file (w.view n)) g.nodes) :
    ∃ order prog, TopSort.topSort G = .ok order ∧ buildBody w.view order = .ok prog ∧
      ∀ x, Optimal (lpBuild (progOf prog) (latOf file (opsOf prog))) x → Extreme (lpBuild (progOf prog) (latOf file (opsOf prog))) x →
      ∀ perm : List (Sched.Chan × Int) → List (Sched.Chan × Int), (∀ l, (perm l).Perm l) →
        ∃ r, lpRun (progOf prog) (latOf file (opsOf prog)) (.solved x) perm = .ok r ∧
          ∀ blk, BlockOrder r.prog blk →
            Computes w.view g.nodes (circuitOf (opsOf prog) r.prog (latOf file (opsOf prog)) blk) r.prog.size := by
  obtain ⟨order, prog, g1, g2, g3⟩ := vertex_compile_computes h hf he file H
  exact ⟨order, prog, g1, g2, fun x _ hx perm hp => g3 x hx perm hp⟩

/-- **C58, combinational pipelining.**  The same with the pipelining pass, for every number of stages (0, the default of the command line, included),
every behaviour of its floating-point load balancing, and a kernel without offsets: whenever the pass finishes, the circuit computes the streams of the kernel. -/
theorem comb_compile_computes (h : Hist F Proper World.init w) (hf : Finished w g) (he : Enumeration w g G)
    (H : Handled w.view (fun _ => 0) g.nodes) (hof : ∀ n ∈ g.nodes, (w.view n).op ≠ .OFFSET) :
    ∃ order prog, TopSort.topSort G = .ok order ∧ buildBody w.view order = .ok prog ∧
      ∀ (A : FloatArith) (stages : Nat), stages < 2^31 →
      ∀ perm : List (Sched.Chan × Int) → List (Sched.Chan × Int), (∀ l, (perm l).Perm l) →
      ∀ X, combPipeline A stages perm (progOf prog) = .ok X →
        ∀ blk, BlockOrder X blk → Computes w.view g.nodes (circuitOf (opsOf prog) X (fun _ => 0) blk) X.size := by
  obtain ⟨order, h1, h2, h3, h4, -⟩ := finished_kernel_is_processable h hf he
  obtain ⟨order', prog, g1, g2, g3⟩ := comb_compile_hw h hf he (H.hw fun n hn => h4 n (h2.mem_iff.mpr hn)) hof
  refine ⟨order', prog, g1, g2, fun A stages hst perm hp X hX blk hblk => ?_⟩
  exact (g3 A stages hst perm hp X hX blk hblk (.inr (.inl H.signs))).computes h2 h3 H

end

end Verif.Flow
