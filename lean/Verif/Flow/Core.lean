import Verif.Flow.Run
import Verif.Sched.CombProps
import Verif.Config.Model
/-
From a scheduled block to the circuit: the argument shared by the three scheduling passes.
-/
namespace Verif.Flow
open Verif.Dfcxx Verif.Hw Verif.Sched

/-- A kernel the back end handles, with the latencies of its units. -/
structure Compilable (V : Nat → NodeV) (order : List Nat) (lat : Nat → Int) : Prop where
  topo  : TopoOrder V order
  compl : ∀ n ∈ order, Complete V n
  supp  : ∀ n ∈ order, Produced V (lat (order.idxOf n)).toNat n
  lats  : LatencyOK V order lat
  offs  : OffsetsFit V order
  few   : ∀ n ∈ order, (V n).srcs.length ≤ 128 ∨ ∀ s ∈ (V n).srcs.tail, (V s).op = .CONST

/-- No two nodes have the same width and different signedness. -/
def SignsByWidth (V : Nat → NodeV) (nodes : List Nat) : Prop :=
  ∀ m ∈ nodes, ∀ n ∈ nodes, width (V m).ty = width (V n).ty → (V m).ty.isSigned = (V n).ty.isSigned

section
variable {V : Nat → NodeV} {order : List Nat} {lat : Nat → Int}

/-- Beyond the block there is nothing. -/
theorem progOf_beyond (stmts : List DStmt) (v : Nat) (h : (progOf stmts).size ≤ v) : (progOf stmts).defn v = .erased := by
  have : (opsOf stmts)[v]? = none := List.getElem?_eq_none h
  simp [progOf, this]

theorem offsets_keep_types (K : Compilable V order lat) : ∀ v < (progOf (block V order)).size, ∀ s k,
    (progOf (block V order)).defn v = .offset s k → opTy (opsOf (block V order)) s = opTy (opsOf (block V order)) v := by
  intro v hv s k hd
  rw [progOf_size] at hv
  obtain ⟨hn, hi⟩ := value_is_node K.topo.nodup hv
  generalize order[v] = n at hn hi
  subst hi
  have hc := K.compl n hn
  rw [progOf_defn V hn hc] at hd
  have ho : (V n).op = .OFFSET := by
    unfold defOf at hd
    cases ho : (V n).op
    case OFFSET => rfl
    case IN => rw [ho] at hd; by_cases hk : (V n).kind = .stream <;> simp [hk] at hd
    case MUX => rw [ho] at hd; cases he : (V n).srcs <;> simp [he] at hd
    all_goals rw [ho] at hd; simp at hd
  obtain ⟨⟨o, hdt⟩, hty⟩ := hc.offset ho
  obtain ⟨a, ha⟩ := hc.unary (by simp [ho])
  simp only [defOf, ho, hdt, ha, Def.offset.injEq] at hd
  obtain ⟨rfl, -⟩ := hd
  have hao := (srcs_in_order K.topo hn (s := a) (by simp [ha])).1
  rw [opTy_at V hao (K.compl a hao), opTy_at V hn hc, hty a (by simp [ha])]

/-- Every value of the scheduled block has the type of a node. -/
theorem valTy_node (K : Compilable V order lat) {X : Prog}
    (hi : TyInv (opTy (opsOf (block V order))) (progOf (block V order)) X) : ∀ v, v < X.size →
      ∃ n ∈ order, valTy (opTy (opsOf (block V order))) X v = (V n).ty := by
  intro v
  induction v using Nat.strongRecOn with
  | _ v ih =>
    intro hv
    by_cases hl : ∃ s m, X.defn v = .latency s m
    · obtain ⟨s, m, hd⟩ := hl
      have h1 := hi.down v s m hd
      obtain ⟨n, hn, e⟩ := ih s h1 (by omega)
      exact ⟨n, hn, by rw [valTy_latency hi.down hd]; exact e⟩
    · have hl' : ∀ s m, X.defn v ≠ .latency s m := fun s m h => hl ⟨s, m, h⟩
      by_cases hvo : v < order.length
      · obtain ⟨hn, he⟩ := value_is_node K.topo.nodup hvo
        refine ⟨_, hn, ?_⟩
        rw [valTy_other hl']
        conv_lhs => rw [← he]
        exact opTy_at V hn (K.compl _ hn)
      · obtain ⟨s, m, h, -⟩ := hi.fresh v (by rw [progOf_size]; omega) hv
        exact absurd h (hl' s m)

theorem noMixed (K : Compilable V order lat) (hsg : SignsByWidth V order) {X : Prog}
    (hi : TyInv (opTy (opsOf (block V order))) (progOf (block V order)) X) : NoMixedBuffers (opTy (opsOf (block V order))) X := by
  intro u v s s' n hu hv _ _ hw
  obtain ⟨a, ha, ea⟩ := valTy_node K hi u hu
  obtain ⟨b, hb, eb⟩ := valTy_node K hi v hv
  rw [ea, eb] at hw ⊢
  exact hsg a ha b hb hw

theorem latOk (K : Compilable V order lat) : LatOk (progOf (block V order)) lat := by
  refine ⟨K.lats.nonneg, fun v h => ?_⟩
  by_cases hv : v < order.length
  · obtain ⟨hn, he⟩ := value_is_node K.topo.nodup hv
    generalize order[v] = n at hn he
    subst he
    refine K.lats.units n hn ?_
    rw [progOf_defn V hn (K.compl n hn)] at h
    intro hu
    unfold defOf at h
    simp only [isUnitOp, List.mem_cons, List.not_mem_nil, or_false] at hu
    rcases hu with e | e | e | e | e | e | e | e | e | e | e | e <;> (rw [e] at h; exact h _ rfl)
  · exact K.lats.beyond v (by omega)

/-- The scheduled block has the structure the conversion relies on. -/
theorem Compilable.ctx (K : Compilable V order lat) {bs : List (Chan × Int)} (hbs : ∀ p ∈ bs, p.1 ∈ channels (progOf (block V order)))
    {X : Prog} (h : applySchedule (progOf (block V order)) bs = .ok X) (hno : NoOffsets X) {blk : List Nat} (hnd : blk.Nodup)
    (hall : ∀ v, v ∈ blk ↔ v < X.size) (hmix : NoMixedBuffers (opTy (opsOf (block V order))) X) {port : String → Nat → Nat}
    (hp : PortsOK V order port) {oob : FVal → List FVal → FVal} (ho : OobOK oob) : Ctx V order lat X blk port oob ∧ Ranked X ∧ NoDangling X := by
  have hP := block_wf K.topo K.compl K.offs
  obtain ⟨hi, hr⟩ := applySchedule_tyInv (base := opTy (opsOf (block V order))) hP (progOf_beyond _) (offsets_keep_types K) hbs h
  exact ⟨⟨K.topo, K.compl, K.supp, hi, hno, hnd, hall, hmix, K.lats, hp, ho⟩, hr, applySchedule_noDangling hP hbs h⟩

theorem Compilable.noMixed (K : Compilable V order lat) (hsg : SignsByWidth V order) {bs : List (Chan × Int)}
    (hbs : ∀ p ∈ bs, p.1 ∈ channels (progOf (block V order))) {X : Prog}
    (h : applySchedule (progOf (block V order)) bs = .ok X) : NoMixedBuffers (opTy (opsOf (block V order))) X :=
  Flow.noMixed K hsg (applySchedule_tyInv (base := opTy (opsOf (block V order))) (block_wf K.topo K.compl K.offs) (progOf_beyond _)
    (offsets_keep_types K) hbs h).1

/-- If the scheduled netlist shows each stream after delay `D`, so does the circuit. -/
theorem Compilable.core (K : Compilable V order lat) {bs : List (Chan × Int)}
    (hbs : ∀ p ∈ bs, p.1 ∈ channels (progOf (block V order)))
    {X : Prog} (h : applySchedule (progOf (block V order)) bs = .ok X) (hno : NoOffsets X) {D : Nat → Int} (hD : ∀ v, 0 ≤ D v)
    (hT : ∀ (I : Sched.Interp Nat) (σ : Nat → Int → Nat), HwRun X I lat σ →
      ∀ v < (progOf (block V order)).size, ((progOf (block V order)).defn v).isNode → ∀ t, 0 ≤ t → ∀ a,
        Sem (progOf (block V order)) I v t a → σ v (D v + t) = a)
    {blk : List Nat} (hnd : blk.Nodup)
    (hall : ∀ v, v ∈ blk ↔ v < X.size) (hmix : NoMixedBuffers (opTy (opsOf (block V order))) X) {port : String → Nat → Nat}
    (hp : PortsOK V order port) {oob : FVal → List FVal → FVal} (ho : OobOK oob) (reg : Nat → Nat → Nat) :
    (∃ σ, CircuitRun (circuitOf (opsOf (block V order)) X lat blk) X.size port oob reg σ) ∧
    ∀ σ, CircuitRun (circuitOf (opsOf (block V order)) X lat blk) X.size port oob reg σ →
      ∀ n ∈ order, (V n).op ≠ .OFFSET → ∀ t a : Nat, HwVal V port n t a →
        σ (order.idxOf n) ((D (order.idxOf n)).toNat + t) = fval (V n).ty a := by
  obtain ⟨C, hr, hda⟩ := K.ctx hbs h hno hnd hall hmix hp ho
  refine ⟨C.run_exists hr hda reg, fun σ hrun n hn hop t a hs => ?_⟩
  have hnet := C.run_netlist hr hda hrun
  have hlt : order.idxOf n < (progOf (block V order)).size := by rw [progOf_size]; exact List.idxOf_lt_length_iff.mpr hn
  have hd := progOf_defn V hn (K.compl n hn)
  have hnode : ((progOf (block V order)).defn (order.idxOf n)).isNode := by
    rw [hd]
    unfold defOf
    cases ho : (V n).op
    case IN => by_cases hk : (V n).kind = .stream <;> simp [hk, Def.isNode]
    case MUX => cases (V n).srcs <;> simp [Def.isNode]
    case OFFSET => exact absurd ho hop
    all_goals simp [Def.isNode]
  have hv := hT _ _ hnet _ hlt hnode t (by omega) a (hwVal_sem K.topo K.compl port oob hs hn)
  have hne : X.defn (order.idxOf n) ≠ .erased := by
    intro e
    have hdi := C.inv.defs _ hlt
    unfold DefInv at hdi
    cases hP : (progOf (block V order)).defn (order.idxOf n) with
    | output o => cases o <;> (rw [hP] at hdi; simp [e] at hdi)
    | node a => rw [hP] at hdi; simp [e] at hdi
    | offset s k => rw [hP] at hnode; simp [Def.isNode] at hnode
    | erased => rw [hP] at hnode; simp [Def.isNode] at hnode
    | _ => rw [hP] at hdi; simp [e] at hdi
  have h0 := hD (order.idxOf n)
  have e : ((D (order.idxOf n)) + (t : Int)).toNat = (D (order.idxOf n)).toNat + t := by omega
  rw [e] at hv
  obtain ⟨hf1, -⟩ := ((C.run_fits hr hda hrun _ (C.lt hn) hne).2 ((D (order.idxOf n)).toNat + t)).1
  rw [C.valTy_orig hn, hv] at hf1
  exact hf1

/-- The circuit has exactly the kernel's output ports, fed as the graph says. -/
theorem Compilable.output_port (K : Compilable V order lat) {bs : List (Chan × Int)}
    (hbs : ∀ p ∈ bs, p.1 ∈ channels (progOf (block V order)))
    {X : Prog} (h : applySchedule (progOf (block V order)) bs = .ok X) (blk : List Nat) {n : Nat} (hn : n ∈ order)
    (ho : (V n).op = .OUT) : ∃ s, circuitOf (opsOf (block V order)) X lat blk (order.idxOf n) =
      .output (V n).name (convertType (hwTy (V n).ty)) (some s) := by
  have hP := block_wf K.topo K.compl K.offs
  obtain ⟨hi, -⟩ := applySchedule_tyInv (base := opTy (opsOf (block V order))) hP (progOf_beyond _) (offsets_keep_types K) hbs h
  have hc := K.compl n hn
  have hd := progOf_defn V hn hc
  have hlt : order.idxOf n < (progOf (block V order)).size := by rw [progOf_size]; exact List.idxOf_lt_length_iff.mpr hn
  have hdi := hi.defs _ hlt
  obtain ⟨s, hs⟩ := hc.out ho
  simp only [defOf, ho, getConnection, hs] at hd
  simp at hd
  rw [hd] at hdi
  obtain ⟨s', h1, -⟩ := hdi
  refine ⟨s', ?_⟩
  have hopi := ops_at V hn
  have hty := opTy_at V hn hc
  simp only [opTy, hopi] at hty
  simp only [circuitOf, cellOf, h1, hopi]
  simp only [opInfo, exactOp, ho, binaryKind, unaryKind] at hty ⊢
  rw [hty]

end

end Verif.Flow
