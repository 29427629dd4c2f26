import Verif.Flow.Cells
/-
One cell, case by case.
-/
namespace Verif.Flow
open Verif.Dfcxx Verif.Hw Verif.Sched

section
variable {V : Nat → NodeV} {order : List Nat} {lat : Nat → Int} {X : Prog} {blk : List Nat} {port : String → Nat → Nat}
  {oob : FVal → List FVal → FVal}

/-- What has to be shown of a cell. -/
def StepOK (V : Nat → NodeV) (order : List Nat) (lat : Nat → Int) (X : Prog) (blk : List Nat) (port : String → Nat → Nat)
    (oob : FVal → List FVal → FVal) (reg : Nat → Nat) (σ : Nat → Nat → FVal) (v t : Nat) : Prop :=
  ∃ x, cellOut port oob reg (circuitOf (opsOf (block V order)) X lat blk v) σ t = some x ∧
    Fits (valTy (opTy (opsOf (block V order))) X v) x ∧ WireSpec (kernelInterp V order port oob) lat X σ v t x

/-- The operands carry values of their types. -/
def Operands (V : Nat → NodeV) (order : List Nat) (X : Prog) (σ : Nat → Nat → FVal) (v : Nat) : Prop :=
  ∀ r ∈ (X.defn v).refs, ∀ t, Fits (valTy (opTy (opsOf (block V order))) X r) (σ r t)

theorem Ctx.lt (C : Ctx V order lat X blk port oob) {n : Nat} (hn : n ∈ order) : order.idxOf n < X.size := by
  have := C.inv.size
  rw [progOf_size] at this
  have := List.idxOf_lt_length_iff.mpr hn
  omega

theorem interp_fn (hn : n ∈ order) (full : List Nat) :
    (kernelInterp V order port oob).fn (order.idxOf n) full = nodeFn V oob n full := by
  simp only [kernelInterp, getElem?_idxOf hn]

/-- Buffers. -/
theorem Ctx.step_latency (C : Ctx V order lat X blk port oob) {v s : Nat} {m : Int} (hv : v < X.size)
    (hd : X.defn v = .latency s m) (reg : Nat → Nat) (σ : Nat → Nat → FVal) (hσ : Operands V order X σ v) (t : Nat) :
    StepOK V order lat X blk port oob reg σ v t := by
  have hp := C.buffers_positive hv hd
  have hs := hσ s (by rw [hd]; simp [Def.refs])
  have hop : hwOpOf (opsOf (block V order)) X lat v = some (.fifo (hwTy (valTy (opTy (opsOf (block V order))) X v)) m) := by
    simp only [hwOpOf, hd]
  have hty := valTy_latency (base := opTy (opsOf (block V order))) C.inv.down hd
  rw [hty] at hop
  obtain ⟨md, h1, h2, h3, h4, h5⟩ := instance_module _ X lat C.nodup (fun u hu => (C.all u).1 hu)
    (fun u hu s m hm => C.buffers_positive hu hm) C.mix ((C.all _).2 hv) hop
  have hlat : md.latency = m.toNat := by rw [h5]; simp [createModule, posLatency, Int.le_of_lt hp]
  obtain ⟨y, g1, g2, g3⟩ := fifo_inst (m := md) reg hs (by rw [h2]; rfl) h3 h4 (by omega) t
  refine ⟨y, ?_, by rw [hty]; exact g2, ?_⟩
  · simp only [circuitOf, cellOf, hd, h1, cellOut, List.map_cons, List.map_nil]
    exact g1
  · simp only [WireSpec, hd]
    intro t' ht
    exact g3 t' (by rw [hlat]; exact ht)

/-- Input ports. -/
theorem Ctx.step_in (C : Ctx V order lat X blk port oob) {n : Nat} (hn : n ∈ order) (ho : (V n).op = .IN) (reg : Nat → Nat)
    (σ : Nat → Nat → FVal) (t : Nat) : StepOK V order lat X blk port oob reg σ (order.idxOf n) t := by
  have hd := progOf_defn V hn (C.compl n hn)
  have hlt : order.idxOf n < (progOf (block V order)).size := by rw [progOf_size]; exact List.idxOf_lt_length_iff.mpr hn
  have hdi := C.inv.defs _ hlt
  rw [hd] at hdi
  have hop := ops_at V hn
  have hfit := C.ports.fits n hn ho t
  have hcv : ∀ v : NodeV, (convTy v).ty = v.ty := by intro v; unfold convTy; cases v.kind <;> rfl
  refine ⟨fval (V n).ty (port (V n).name t), ?_, by rw [C.valTy_orig hn]; exact fits_fval hfit, ?_⟩
  · by_cases hk : (V n).kind = .stream
    · simp only [defOf, ho, hk, if_true, DefInv] at hdi
      simp [circuitOf, cellOf, hdi, hop, opInfo, exactOp, ho, binaryKind, unaryKind, cellOut, fval, hcv]
    · simp only [defOf, ho, hk, if_false, DefInv] at hdi
      simp [circuitOf, cellOf, hdi, hop, opInfo, exactOp, ho, binaryKind, unaryKind, cellOut, fval, hcv]
  · by_cases hk : (V n).kind = .stream
    · simp only [defOf, ho, hk, if_true, DefInv] at hdi
      simp [WireSpec, hdi, fval, typed, kernelInterp, getElem?_idxOf hn]
    · simp only [defOf, ho, hk, if_false, DefInv] at hdi
      have := C.ports.scalar n hn ho hk t
      simp only [WireSpec, hdi, fval, typed, kernelInterp, getElem?_idxOf hn, ho]
      rw [this]
      cases (V n).kind <;> simp

/-- Constants. -/
theorem Ctx.step_const (C : Ctx V order lat X blk port oob) {n : Nat} (hn : n ∈ order) (ho : (V n).op = .CONST) (reg : Nat → Nat)
    (σ : Nat → Nat → FVal) (t : Nat) : StepOK V order lat X blk port oob reg σ (order.idxOf n) t := by
  have hd := progOf_defn V hn (C.compl n hn)
  have hlt : order.idxOf n < (progOf (block V order)).size := by rw [progOf_size]; exact List.idxOf_lt_length_iff.mpr hn
  have hdi := C.inv.defs _ hlt
  rw [hd] at hdi
  have hop := ops_at V hn
  obtain ⟨c, hk⟩ := (C.compl n hn).const ho
  have htok := (C.supp n hn).1
  have h3 : ∀ e f, (V n).ty ≠ .float e f := by
    have := (C.supp n hn).2
    rw [ho] at this
    exact this
  have htb : (V n).ty.totalBits = width (V n).ty := by
    obtain ⟨h1, h2, -⟩ := htok
    cases hty : (V n).ty with
    | fixed s i f =>
      rw [hty] at h2
      simp only [width] at h2
      simp only [DFType.totalBits, width]
      exact Nat.mod_eq_of_lt h2
    | float e f => exact absurd hty (h3 e f)
    | rawBits b => rfl
  simp only [defOf, ho, DefInv] at hdi
  have hlt2 : pattern (V n).ty (constInt (V n).ty c) < 2 ^ width (V n).ty := pattern_lt _ _
  refine ⟨fval (V n).ty (pattern (V n).ty (constInt (V n).ty c)), ?_, by rw [C.valTy_orig hn]; exact fits_fval hlt2, ?_⟩
  · simp [circuitOf, cellOf, hdi, hop, opInfo, exactOp, ho, hk, binaryKind, unaryKind, cellOut, fval, constBits, pattern, htb, convTy]
  · simp [WireSpec, hdi, fval, typed, kernelInterp, getElem?_idxOf hn, hk, ho]

/-- Outputs. -/
theorem Ctx.step_out (C : Ctx V order lat X blk port oob) {n : Nat} (hn : n ∈ order) (ho : (V n).op = .OUT) (reg : Nat → Nat)
    (σ : Nat → Nat → FVal) (hσ : Operands V order X σ (order.idxOf n)) (t : Nat) :
    StepOK V order lat X blk port oob reg σ (order.idxOf n) t := by
  have hd := progOf_defn V hn (C.compl n hn)
  have hlt : order.idxOf n < (progOf (block V order)).size := by rw [progOf_size]; exact List.idxOf_lt_length_iff.mpr hn
  have hdi := C.inv.defs _ hlt
  rw [hd] at hdi
  have hop := ops_at V hn
  obtain ⟨s, hs⟩ := (C.compl n hn).out ho
  have hsm : s ∈ (V n).srcs := by simp [NodeV.srcs, hs]
  have hso := (srcs_in_order C.topo hn hsm).1
  have hgc : getConnection (V n) = some s := by simp [getConnection, hs]
  simp only [defOf, ho, hgc, Option.map_some, DefInv] at hdi
  obtain ⟨s', h1, h2⟩ := hdi
  have hsup := (C.supp n hn).2
  rw [ho] at hsup
  simp only at hsup
  rw [opTy_at V hso (C.compl s hso)] at h2
  have hf := hσ s' (by rw [h1]; simp [Def.refs]) t
  rw [h2] at hf
  have hf := hf.congr (hsup s hsm)
  have hcv : ∀ v : NodeV, (convTy v).ty = v.ty := by intro v; unfold convTy; cases v.kind <;> rfl
  refine ⟨σ s' t, ?_, by rw [C.valTy_orig hn]; exact hf, by simp [WireSpec, h1]⟩
  simp only [circuitOf, cellOf, h1, hop, opInfo, exactOp, ho, binaryKind, unaryKind, cellOut, hcv]
  exact conn_fits hf

/-- Arithmetic units. -/
theorem Ctx.step_arith (C : Ctx V order lat X blk port oob) {n a b : Nat} (hn : n ∈ order)
    (hop : (V n).op ∉ [.IN, .CONST, .OUT, .OFFSET, .MUX]) (hsrc : (V n).srcs = [a, b]) {k : UnitKind} {op : VOp} {f : Int → Int → Int}
    (hk : unitOf (exactOp V order.idxOf n).1 = some k) (hst : expectedStub (.unit k [] (.bits 0) 0) = some (.binary op))
    (hf : arithSpec op = some f)
    (hm : ∀ x y, hwMeaning (V n).op (V n).data (V n).ty [x, y] = some (hwArith f (V n).ty x y))
    (hsup : 0 < (lat (order.idxOf n)).toNat ∨ unsignedTy (V n).ty)
    (reg : Nat → Nat) (σ : Nat → Nat → FVal) (hσ : Operands V order X σ (order.idxOf n)) (t : Nat) :
    StepOK V order lat X blk port oob reg σ (order.idxOf n) t := by
  obtain ⟨args, hd, hargs⟩ := C.node hn hop
  obtain ⟨m, h1, h2, h3, h4, h5⟩ := C.unit hn hd hargs hk
  rw [hsrc] at hargs h4
  obtain ⟨u, w, rfl, hu, hw⟩ := map_two hargs
  have hfu := hσ u (by rw [hd]; simp [Def.refs])
  have hfw := hσ w (by rw [hd]; simp [Def.refs])
  simp only [hu] at hfu
  simp only [hw] at hfw
  obtain ⟨z, g1, g2, g3⟩ := arith_inst hf reg hfu hfw (by rw [h2, hst]) h3 h4 (by rw [h5]; exact hsup) t
  refine ⟨z, ?_, by rw [C.valTy_orig hn]; exact g2, ?_⟩
  · rw [h1]; exact g1
  · simp only [WireSpec, hd]
    intro t' ht
    rw [interp_fn hn]
    simp only [nodeFn]
    rw [if_neg (by intro e; simp [e] at hop)]
    simp only [hsrc, List.map_cons, List.map_nil, List.zip_cons_cons, List.zip_nil_right, hm, Option.getD_some]
    exact g3 t' (by rw [h5]; exact ht)

/-- Comparisons. -/
theorem Ctx.step_comp (C : Ctx V order lat X blk port oob) {n a b : Nat} (hn : n ∈ order)
    (hop : (V n).op ∉ [.IN, .CONST, .OUT, .OFFSET, .MUX]) (hsrc : (V n).srcs = [a, b]) {k : UnitKind} {op : VOp} {f : Int → Int → Bool}
    (hk : unitOf (exactOp V order.idxOf n).1 = some k) (hst : expectedStub (.unit k [] (.bits 0) 0) = some (.binary op))
    (hf : compSpec op = some f)
    (hm : ∀ x y, hwMeaning (V n).op (V n).data (V n).ty [x, y] = some (truth (hwComp f x y)))
    (hu : unsignedTy (V n).ty)
    (reg : Nat → Nat) (σ : Nat → Nat → FVal) (hσ : Operands V order X σ (order.idxOf n)) (t : Nat) :
    StepOK V order lat X blk port oob reg σ (order.idxOf n) t := by
  obtain ⟨args, hd, hargs⟩ := C.node hn hop
  obtain ⟨m, h1, h2, h3, h4, h5⟩ := C.unit hn hd hargs hk
  have hwa := (C.supp a (srcs_in_order C.topo hn (by simp [hsrc])).1).1.1
  have hwb := (C.supp b (srcs_in_order C.topo hn (by simp [hsrc])).1).1.1
  rw [hsrc] at hargs h4
  obtain ⟨u, w, rfl, hu', hw⟩ := map_two hargs
  have hfu := hσ u (by rw [hd]; simp [Def.refs])
  have hfw := hσ w (by rw [hd]; simp [Def.refs])
  simp only [hu'] at hfu
  simp only [hw] at hfw
  obtain ⟨z, g1, g2, g3⟩ := comp_inst hf reg hfu hfw (by rw [h2, hst]) h3 h4 (C.supp n hn).1.1 hwa hwb hu t
  refine ⟨z, ?_, by rw [C.valTy_orig hn]; exact g2, ?_⟩
  · rw [h1]; exact g1
  · simp only [WireSpec, hd]
    intro t' ht
    rw [interp_fn hn]
    simp only [nodeFn]
    rw [if_neg (by intro e; simp [e] at hop)]
    simp only [hsrc, List.map_cons, List.map_nil, List.zip_cons_cons, List.zip_nil_right, hm, Option.getD_some]
    exact g3 t' (by rw [h5]; exact ht)

/-- Casts. -/
theorem Ctx.step_cast (C : Ctx V order lat X blk port oob) {n : Nat} (hn : n ∈ order) (ho : (V n).op = .CAST)
    (reg : Nat → Nat) (σ : Nat → Nat → FVal) (hσ : Operands V order X σ (order.idxOf n)) (t : Nat) :
    StepOK V order lat X blk port oob reg σ (order.idxOf n) t := by
  obtain ⟨s, hsrc⟩ := (C.compl n hn).unary (by simp [ho])
  obtain ⟨args, hd, hargs⟩ := C.node hn (by simp [ho])
  obtain ⟨m, h1, h2, h3, h4, h5⟩ := C.unit hn hd hargs (k := .cast) (by simp [exactOp, ho, binaryKind, unaryKind, unitOf])
  have hsup := (C.supp n hn).2
  rw [ho] at hsup
  have hsup := hsup s (by simp [hsrc])
  rw [hsrc] at hargs h4
  obtain ⟨u, rfl, hu⟩ := map_one hargs
  have hfu := hσ u (by rw [hd]; simp [Def.refs])
  simp only [hu] at hfu
  obtain ⟨z, g1, g2, g3⟩ := cast_inst (ty := (V n).ty) reg hfu (by rw [h2]; rfl) h3 h4 (by rw [h5]; exact hsup) t
  refine ⟨z, ?_, by rw [C.valTy_orig hn]; exact g2, ?_⟩
  · rw [h1]; exact g1
  · simp only [WireSpec, hd]
    intro t' ht
    rw [interp_fn hn]
    simp only [nodeFn]
    rw [if_neg (by simp [ho])]
    simp only [hsrc, List.map_cons, List.map_nil, List.zip_cons_cons, List.zip_nil_right, ho, hwMeaning, Option.getD_some]
    exact g3 t' (by rw [h5]; exact ht)

/-- Nodes without a unit: their value is combinational. -/
theorem Ctx.step_prim (C : Ctx V order lat X blk port oob) {n : Nat} (hn : n ∈ order) (hu : ¬ isUnitOp (V n).op)
    (hop : (V n).op ∉ [.IN, .CONST, .OUT, .OFFSET, .MUX]) {args : List Nat} (hd : X.defn (order.idxOf n) = .node args)
    (reg : Nat → Nat) (σ : Nat → Nat → FVal) (t : Nat) (x : FVal)
    (hx : cellOut port oob reg (circuitOf (opsOf (block V order)) X lat blk (order.idxOf n)) σ t = some x)
    (hf : Fits (V n).ty x)
    (hm : hwMeaning (V n).op (V n).data (V n).ty (((V n).srcs.map fun s => (V s).ty).zip (args.map fun s => (σ s t).n)) = some x.n) :
    StepOK V order lat X blk port oob reg σ (order.idxOf n) t := by
  refine ⟨x, hx, by rw [C.valTy_orig hn]; exact hf, ?_⟩
  simp only [WireSpec, hd]
  intro t' ht
  rw [C.lats.units n hn hu] at ht
  have : t' = t := by simpa using ht.symm
  subst this
  rw [interp_fn hn]
  simp only [nodeFn]
  rw [if_neg (by intro e; simp [e] at hop), hm]
  rfl

end

end Verif.Flow
