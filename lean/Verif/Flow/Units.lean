import Verif.Flow.Verify
/-
C38, C58: which hardware unit every node of a kernel becomes, for all operators (including division and negation, for which the library
has no implementation) and without any condition on types.
-/
namespace Verif.Flow
open Verif.Dfcxx Verif.Hw Verif.Sched

/-- The library unit of an operator (specification): arithmetic, comparisons and casts are units, nothing else is. -/
def opUnit : OpType → Option UnitKind
  | .ADD => some .add
  | .SUB => some .sub
  | .MUL => some .mul
  | .DIV => some .div
  | .NEG => some .neg
  | .LESS => some .less
  | .LESSEQ => some .lesseq
  | .GREATER => some .greater
  | .GREATEREQ => some .greatereq
  | .EQ => some .eq
  | .NEQ => some .neq
  | .CAST => some .cast
  | _ => none

section
variable {V : Nat → NodeV} {order : List Nat}

theorem exactOp_unit {n : Nat} (hc : Complete V n) (idx : Nat → Nat) : unitOf (exactOp V idx n).1 = opUnit (V n).op := by
  cases ho : (V n).op
  case NONE => exact absurd ho hc.notNone
  case IN => by_cases hk : (V n).kind = .stream <;> simp [exactOp, ho, binaryKind, unaryKind, hk, unitOf, opUnit]
  case OUT => by_cases hk : (V n).kind = .stream <;> simp [exactOp, ho, binaryKind, unaryKind, hk, unitOf, opUnit]
  case CONST => obtain ⟨c, h⟩ := hc.const ho; simp [exactOp, ho, binaryKind, unaryKind, h, unitOf, opUnit]
  case MUX => obtain ⟨-, c, alts, he⟩ := hc.mux ho; simp [exactOp, ho, binaryKind, unaryKind, he, unitOf, opUnit]
  case OFFSET => obtain ⟨⟨o, hd⟩, -⟩ := hc.offset ho; simp [exactOp, ho, binaryKind, unaryKind, hd, unitOf, opUnit]
  case SHL => obtain ⟨k, hd⟩ := hc.shift (by simp [ho]); simp [exactOp, ho, binaryKind, unaryKind, hd, unitOf, opUnit]
  case SHR => obtain ⟨k, hd⟩ := hc.shift (by simp [ho]); simp [exactOp, ho, binaryKind, unaryKind, hd, unitOf, opUnit]
  case BITS => obtain ⟨l, r, hd⟩ := hc.bits ho; simp [exactOp, ho, binaryKind, unaryKind, hd, unitOf, opUnit]
  all_goals simp [exactOp, ho, binaryKind, unaryKind, unitOf, opUnit]

/-- Types survive scheduling. -/
theorem scheduled_tyInv (hc : ∀ n ∈ order, Complete V n) (hto : TopoOrder V order)
    (hof : ∀ n ∈ order, ∀ k, (V n).data = .offset k → -(2^31 : Int) ≤ k ∧ k < 2^31)
    {bs : List (Sched.Chan × Int)} (hbs : ∀ p ∈ bs, p.1 ∈ channels (progOf (block V order)))
    {X : Prog} (h : applySchedule (progOf (block V order)) bs = .ok X) :
    TyInv (opTy (opsOf (block V order))) (progOf (block V order)) X := by
  refine (applySchedule_tyInv (block_wf hto hc hof) (progOf_beyond _) ?_ hbs h).1
  intro v hv s k hdf
  rw [progOf_size] at hv
  obtain ⟨hn, hi⟩ := value_is_node hto.nodup hv
  generalize order[v] = n at hn hi
  subst hi
  rw [progOf_defn V hn (hc n hn)] at hdf
  have ho : (V n).op = .OFFSET := by
    unfold defOf at hdf
    cases ho : (V n).op
    case OFFSET => rfl
    case IN => rw [ho] at hdf; by_cases hk : (V n).kind = .stream <;> simp [hk] at hdf
    case MUX => rw [ho] at hdf; cases he : (V n).srcs <;> simp [he] at hdf
    all_goals rw [ho] at hdf; simp at hdf
  obtain ⟨⟨o, hdt⟩, hty⟩ := (hc n hn).offset ho
  obtain ⟨a, ha⟩ := (hc n hn).unary (by simp [ho])
  simp only [defOf, ho, hdt, ha, Def.offset.injEq] at hdf
  obtain ⟨rfl, -⟩ := hdf
  have hao := (srcs_in_order hto hn (s := a) (by simp [ha])).1
  rw [opTy_at V hao (hc a hao), opTy_at V hn (hc n hn), hty a (by simp [ha])]

/-- Every node becomes the unit of its operator, with the types of its operands and of its result and its own latency; what is not
arithmetic, a comparison or a cast becomes no unit. -/
theorem scheduled_units (hc : ∀ n ∈ order, Complete V n) (hto : TopoOrder V order)
    (hof : ∀ n ∈ order, ∀ k, (V n).data = .offset k → -(2^31 : Int) ≤ k ∧ k < 2^31)
    {bs : List (Sched.Chan × Int)} (hbs : ∀ p ∈ bs, p.1 ∈ channels (progOf (block V order)))
    {X : Prog} (h : applySchedule (progOf (block V order)) bs = .ok X) (lat : Nat → Int) {n : Nat} (hn : n ∈ order) :
    hwOpOf (opsOf (block V order)) X lat (order.idxOf n) =
      (opUnit (V n).op).map fun k => .unit k ((V n).srcs.map fun s => hwTy (V s).ty) (hwTy (V n).ty) (lat (order.idxOf n)) := by
  have hinv := scheduled_tyInv hc hto hof hbs h
  have hop := ops_at V hn
  have hty := opTy_at V hn (hc n hn)
  simp only [opTy, hop] at hty
  have hu := exactOp_unit (hc n hn) order.idxOf
  have hdi := hinv.defs (order.idxOf n) (by rw [progOf_size]; exact List.idxOf_lt_length_iff.mpr hn)
  rw [progOf_defn V hn (hc n hn)] at hdi
  by_cases hnu : opUnit (V n).op = none
  · rw [hnu]
    have : ∀ s m, X.defn (order.idxOf n) ≠ .latency s m := by
      intro s m hX
      unfold defOf at hdi
      cases ho : (V n).op <;> simp [ho, opUnit] at hnu <;> rw [ho] at hdi
      case IN => by_cases hk : (V n).kind = .stream <;> simp [hk, DefInv, hX] at hdi
      case CONST => simp [DefInv, hX] at hdi
      case OUT => cases hg : getConnection (V n) <;> simp [hg, DefInv, hX] at hdi
      case OFFSET =>
        obtain ⟨⟨o, hd⟩, -⟩ := (hc n hn).offset ho
        obtain ⟨a, ha⟩ := (hc n hn).unary (by simp [ho])
        simp [hd, ha, DefInv, hX] at hdi
      case MUX =>
        obtain ⟨-, c, alts, he⟩ := (hc n hn).mux ho
        simp [he, DefInv, hX] at hdi
      case NONE => exact (hc n hn).notNone ho
      all_goals simp [DefInv, hX] at hdi
    unfold hwOpOf
    cases hX : X.defn (order.idxOf n) with
    | latency s m => exact absurd hX (this s m)
    | node args => simp only [hop, opInfo, hu, hnu]; rfl
    | _ => rfl
  · have hdn : defOf V order.idxOf n = .node ((V n).srcs.map order.idxOf) := by
      unfold defOf
      cases ho : (V n).op <;> simp [ho, opUnit] at hnu <;> rfl
    rw [hdn] at hdi
    obtain ⟨args, h1, h2⟩ := hdi
    have e : (args.map fun a => hwTy (valTy (opTy (opsOf (block V order))) X a)) = (V n).srcs.map fun s => hwTy (V s).ty := by
      have := congrArg (List.map hwTy) h2
      rw [List.map_map, List.map_map, List.map_map] at this
      refine Eq.trans this (List.map_congr_left fun s hs => ?_)
      have hso := (srcs_in_order hto hn hs).1
      simp only [Function.comp_apply, opTy_at V hso (hc s hso)]
    simp only [hwOpOf, h1, hop, e, hty]
    simp only [opInfo, hu]

/-- Every value inserted by scheduling is a buffer of positive depth. -/
theorem scheduled_buffers (hc : ∀ n ∈ order, Complete V n) (hto : TopoOrder V order)
    (hof : ∀ n ∈ order, ∀ k, (V n).data = .offset k → -(2^31 : Int) ≤ k ∧ k < 2^31)
    {bs : List (Sched.Chan × Int)} (hbs : ∀ p ∈ bs, p.1 ∈ channels (progOf (block V order)))
    {X : Prog} (h : applySchedule (progOf (block V order)) bs = .ok X) (lat : Nat → Int) {v : Nat} (hv : order.length ≤ v)
    (hvx : v < X.size) : ∃ n ∈ order, ∃ d, 0 < d ∧ hwOpOf (opsOf (block V order)) X lat v = some (.fifo (hwTy (V n).ty) d) := by
  have hinv := scheduled_tyInv hc hto hof hbs h
  have hval : ∀ v, v < X.size → ∃ n ∈ order, valTy (opTy (opsOf (block V order))) X v = (V n).ty := by
    intro v
    induction v using Nat.strongRecOn with
    | _ v ih =>
      intro hv
      by_cases hl : ∃ s m, X.defn v = .latency s m
      · obtain ⟨s, m, hd⟩ := hl
        have h1 := hinv.down v s m hd
        obtain ⟨n, hn, e⟩ := ih s h1 (by omega)
        exact ⟨n, hn, by rw [valTy_latency hinv.down hd]; exact e⟩
      · have hl' : ∀ s m, X.defn v ≠ .latency s m := fun s m h => hl ⟨s, m, h⟩
        by_cases hvo : v < order.length
        · obtain ⟨hn, he⟩ := value_is_node hto.nodup hvo
          refine ⟨_, hn, ?_⟩
          rw [valTy_other hl']
          conv_lhs => rw [← he]
          exact opTy_at V hn (hc _ hn)
        · obtain ⟨s, m, h, -⟩ := hinv.fresh v (by rw [progOf_size]; omega) hv
          exact absurd h (hl' s m)
  obtain ⟨s, d, hd, hpos⟩ := hinv.fresh v (by rw [progOf_size]; exact hv) hvx
  obtain ⟨n, hn, e⟩ := hval v hvx
  exact ⟨n, hn, d, hpos, by simp only [hwOpOf, hd, e]⟩

end

/-- **C38 for compiled kernels.**  For every kernel built by any sensible history of API calls, under any schedule: each node becomes
the library unit of its operator, with ports of the types of its own operands and result and with its own latency (or no unit, if the
operator needs none); everything else in the scheduled block is a buffer of positive depth with the type of a node. -/
theorem api_units {F : FloatOps} {w : World} {g : KGraph} {G : TopSort.Graph Nat} (h : Hist F Proper World.init w) (hf : Finished w g)
    (he : Enumeration w g G) (hof : ∀ n ∈ g.nodes, ∀ k, (w.view n).data = .offset k → -(2^31 : Int) ≤ k ∧ k < 2^31) :
    ∃ order prog, TopSort.topSort G = .ok order ∧ buildBody w.view order = .ok prog ∧ order.Perm g.nodes ∧
      ∀ (bs : List (Sched.Chan × Int)) (X : Prog) (lat : Nat → Int), (∀ p ∈ bs, p.1 ∈ channels (progOf prog)) →
        applySchedule (progOf prog) bs = .ok X →
        (∀ n ∈ g.nodes, hwOpOf (opsOf prog) X lat (order.idxOf n) =
          (opUnit (w.view n).op).map fun k =>
            .unit k ((w.view n).srcs.map fun s => hwTy (w.view s).ty) (hwTy (w.view n).ty) (lat (order.idxOf n))) ∧
        ∀ v, order.length ≤ v → v < X.size → ∃ n ∈ g.nodes, ∃ d, 0 < d ∧ hwOpOf (opsOf prog) X lat v = some (.fifo (hwTy (w.view n).ty) d) := by
  obtain ⟨order, h1, h2, h3, h4, -⟩ := finished_kernel_is_processable h hf he
  refine ⟨order, block w.view order, h1, buildBody_exact w.view order h3 h4, h2, fun bs X lat hbs hX => ?_⟩
  have hof' : ∀ n ∈ order, ∀ k, (w.view n).data = .offset k → -(2^31 : Int) ≤ k ∧ k < 2^31 := fun n hn => hof n (h2.mem_iff.mp hn)
  refine ⟨fun n hn => scheduled_units h4 h3 hof' hbs hX lat (h2.mem_iff.mpr hn), fun v hv hvx => ?_⟩
  obtain ⟨n, hn, r⟩ := scheduled_buffers h4 h3 hof' hbs hX lat hv hvx
  exact ⟨n, h2.mem_iff.mp hn, r⟩

end Verif.Flow
