import Verif.Flow.Insts
/-
Every cell of the converted kernel computes what its operation means.
-/
namespace Verif.Flow
open Verif.Dfcxx Verif.Hw Verif.Sched

/-- Operators that become units with a latency of their own. -/
def isUnitOp (op : OpType) : Prop :=
  op ∈ [.ADD, .SUB, .MUL, .DIV, .NEG, .LESS, .LESSEQ, .GREATER, .GREATEREQ, .EQ, .NEQ, .CAST]

/-- Latencies as configured: not negative, and none for what is not a unit. -/
structure LatencyOK (V : Nat → NodeV) (order : List Nat) (lat : Nat → Int) : Prop where
  nonneg : ∀ v, 0 ≤ lat v
  units  : ∀ n ∈ order, ¬ isUnitOp (V n).op → lat (order.idxOf n) = 0
  beyond : ∀ v, order.length ≤ v → lat v = 0

/-- The values fed to the input ports fit their types, and those of scalar inputs do not change. -/
structure PortsOK (V : Nat → NodeV) (order : List Nat) (port : String → Nat → Nat) : Prop where
  fits   : ∀ n ∈ order, (V n).op = .IN → ∀ t, port (V n).name t < 2 ^ width (V n).ty
  scalar : ∀ n ∈ order, (V n).op = .IN → (V n).kind ≠ .stream → ∀ t, port (V n).name t = port (V n).name 0

/-- Whatever a multiplexer outputs for a select out of range, it has the type of the alternatives. -/
def OobOK (oob : FVal → List FVal → FVal) : Prop :=
  ∀ (s : Bool) (w : Nat) (c : FVal) (alts : List FVal), alts ≠ [] → (∀ x ∈ alts, x.sgn = s ∧ x.w = w ∧ x.n < 2 ^ w) →
    (oob c alts).sgn = s ∧ (oob c alts).w = w ∧ (oob c alts).n < 2 ^ w

structure Ctx (V : Nat → NodeV) (order : List Nat) (lat : Nat → Int) (X : Prog) (blk : List Nat)
    (port : String → Nat → Nat) (oob : FVal → List FVal → FVal) : Prop where
  topo  : TopoOrder V order
  compl : ∀ n ∈ order, Complete V n
  supp  : ∀ n ∈ order, Produced V (lat (order.idxOf n)).toNat n
  inv   : TyInv (opTy (opsOf (block V order))) (progOf (block V order)) X
  noOff : NoOffsets X
  nodup : blk.Nodup
  all   : ∀ v, v ∈ blk ↔ v < X.size
  mix   : NoMixedBuffers (opTy (opsOf (block V order))) X
  lats  : LatencyOK V order lat
  ports : PortsOK V order port
  oobs  : OobOK oob

/-- What the value `x` on wire `v` in cycle `t` must be. -/
def WireSpec (I : Sched.Interp Nat) (lat : Nat → Int) (X : Prog) (σ : Nat → Nat → FVal) (v t : Nat) (x : FVal) : Prop :=
  match X.defn v with
  | .stream => x.n = I.inp v t
  | .scalar | .const => x.n = I.cst v
  | .output (some s) => x.n = (σ s t).n
  | .node args => ∀ t' : Nat, t = t' + (lat v).toNat → x.n = I.fn v (args.map fun s => (σ s t').n)
  | .latency s n => ∀ t' : Nat, t = t' + n.toNat → x.n = (σ s t').n
  | _ => True

theorem cell_unit {ops : List OpInfo} {X : Prog} {mods : List (Nat × Module)} {v : Nat} {args : List Nat} {o : OpInfo} {k : UnitKind}
    {m : Module} (hd : X.defn v = .node args) (ho : ops[v]? = some o) (hk : unitOf o.kind = some k)
    (hm : mods.lookup v = some m) : cellOf ops X mods v = .inst m args := by
  unfold cellOf
  obtain ⟨kind, ty, attr, operands⟩ := o
  simp only at hk
  cases kind <;> simp [unitOf] at hk <;> simp [hd, ho, unitOf, hm]

theorem map_two {f : Nat → DFType} {l : List Nat} {a b : DFType} (h : l.map f = [a, b]) : ∃ u w, l = [u, w] ∧ f u = a ∧ f w = b := by
  match l, h with
  | [u, w], h => simp at h; exact ⟨u, w, rfl, h.1, h.2⟩
  | [], h => simp at h
  | [_], h => simp at h
  | _ :: _ :: _ :: _, h => simp at h

theorem map_one {f : Nat → DFType} {l : List Nat} {a : DFType} (h : l.map f = [a]) : ∃ u, l = [u] ∧ f u = a := by
  match l, h with
  | [u], h => simp at h; exact ⟨u, rfl, h⟩
  | [], h => simp at h
  | _ :: _ :: _, h => simp at h

section
variable {V : Nat → NodeV} {order : List Nat} {lat : Nat → Int} {X : Prog} {blk : List Nat} {port : String → Nat → Nat}
  {oob : FVal → List FVal → FVal}

/-- The scheduled definition of a computing node. -/
theorem Ctx.node (C : Ctx V order lat X blk port oob) {n : Nat} (hn : n ∈ order) (hop : (V n).op ∉ [.IN, .CONST, .OUT, .OFFSET, .MUX]) :
    ∃ args, X.defn (order.idxOf n) = .node args ∧
      args.map (valTy (opTy (opsOf (block V order))) X) = (V n).srcs.map fun s => (V s).ty := by
  have hd := progOf_defn V hn (C.compl n hn)
  have hdn : defOf V order.idxOf n = .node ((V n).srcs.map order.idxOf) := by
    unfold defOf
    simp at hop
    cases hh : (V n).op <;> simp_all
  have hlt : order.idxOf n < (progOf (block V order)).size := by rw [progOf_size]; exact List.idxOf_lt_length_iff.mpr hn
  have hdi := C.inv.defs _ hlt
  rw [hd, hdn] at hdi
  obtain ⟨args, h1, h2⟩ := hdi
  refine ⟨args, h1, ?_⟩
  rw [h2, List.map_map]
  refine List.map_congr_left fun s hs => ?_
  have hso := (srcs_in_order C.topo hn hs).1
  exact opTy_at V hso (C.compl s hso)

theorem Ctx.not_latency (C : Ctx V order lat X blk port oob) {n : Nat} (hn : n ∈ order) {s : Nat} {m : Int} :
    X.defn (order.idxOf n) ≠ .latency s m := by
  have hlt : order.idxOf n < (progOf (block V order)).size := by rw [progOf_size]; exact List.idxOf_lt_length_iff.mpr hn
  have hdi := C.inv.defs _ hlt
  have hnl : ∀ u w, (progOf (block V order)).defn (order.idxOf n) ≠ .latency u w := by
    intro u w
    rw [progOf_defn V hn (C.compl n hn)]
    unfold defOf
    cases ho : (V n).op
    case IN => by_cases hk : (V n).kind = .stream <;> simp [hk]
    case OFFSET => simp only; split <;> simp
    case MUX => simp only; split <;> simp
    all_goals simp
  intro hX
  unfold DefInv at hdi
  cases hP : (progOf (block V order)).defn (order.idxOf n) with
  | output o => cases o <;> (rw [hP] at hdi; simp [hX] at hdi)
  | node a => rw [hP] at hdi; simp [hX] at hdi
  | offset s k => rw [hP] at hdi; simp [hX] at hdi
  | latency u w => exact hnl u w hP
  | _ => rw [hP] at hdi; simp [hX] at hdi

theorem Ctx.valTy_orig (C : Ctx V order lat X blk port oob) {n : Nat} (hn : n ∈ order) :
    valTy (opTy (opsOf (block V order))) X (order.idxOf n) = (V n).ty := by
  rw [valTy_other (fun s m => C.not_latency hn), opTy_at V hn (C.compl n hn)]

theorem Ctx.buffers_positive (C : Ctx V order lat X blk port oob) {u s : Nat} {m : Int} (hu : u < X.size)
    (hm : X.defn u = .latency s m) : 0 < m := by
  by_cases h : u < (progOf (block V order)).size
  · exfalso
    rw [progOf_size] at h
    obtain ⟨g1, g2⟩ := value_is_node C.topo.nodup h
    exact C.not_latency g1 (by rw [g2]; exact hm)
  · obtain ⟨s', m', e1, e2⟩ := C.inv.fresh u (by omega) hu
    rw [hm] at e1; cases e1; exact e2

/-- The module of a unit. -/
theorem Ctx.unit (C : Ctx V order lat X blk port oob) {n : Nat} (hn : n ∈ order) {args : List Nat}
    (hd : X.defn (order.idxOf n) = .node args)
    (hargs : args.map (valTy (opTy (opsOf (block V order))) X) = (V n).srcs.map fun s => (V s).ty) {k : UnitKind}
    (hk : unitOf (exactOp V order.idxOf n).1 = some k) :
    ∃ m, circuitOf (opsOf (block V order)) X lat blk (order.idxOf n) = .inst m args ∧
      stubOf m.name = expectedStub (.unit k [] (.bits 0) 0) ∧ m.res = convertType (hwTy (V n).ty) ∧
      m.args = ((V n).srcs.map fun s => convertType (hwTy (V s).ty)) ∧ m.latency = (lat (order.idxOf n)).toNat := by
  have ho := ops_at V hn
  have hop : hwOpOf (opsOf (block V order)) X lat (order.idxOf n) =
      some (.unit k ((V n).srcs.map fun s => hwTy (V s).ty) (hwTy (V n).ty) (lat (order.idxOf n))) := by
    have hty := opTy_at V hn (C.compl n hn)
    simp only [opTy, ho] at hty
    have e : (args.map fun a => hwTy (valTy (opTy (opsOf (block V order))) X a)) = (V n).srcs.map fun s => hwTy (V s).ty := by
      have := congrArg (List.map hwTy) hargs
      simpa [List.map_map, Function.comp_def] using this
    simp only [hwOpOf, hd, ho, e, hty]
    simp only [opInfo, hk, Option.map_some]
  have hlt : order.idxOf n < X.size := by
    have := C.inv.size
    rw [progOf_size] at this
    have := List.idxOf_lt_length_iff.mpr hn
    omega
  obtain ⟨m, h1, h2, h3, h4, h5⟩ := instance_module _ X lat C.nodup (fun u hu => (C.all u).1 hu)
    (fun u hu s m hm => C.buffers_positive hu hm)
    C.mix ((C.all _).2 hlt) hop
  refine ⟨m, cell_unit hd ho (by simpa [opInfo] using hk) h1, ?_, h3, by rw [h4]; simp [createModule, List.map_map, Function.comp_def], ?_⟩
  · rw [h2]; cases k <;> rfl
  · rw [h5]; simp [createModule, posLatency, C.lats.nonneg]

end

end Verif.Flow
