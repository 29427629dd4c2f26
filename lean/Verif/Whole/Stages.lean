import Verif.Whole.Model
import Verif.Flow.Exempt
/-
The stages succeed.
-/
namespace Verif.Whole
open Verif.Dfcxx Verif.Flow Verif.Sched Verif.Driver
open Verif.Sdf (posLat posLat_latOf posLat_unset Pass produced_dialect schedLines_inv)

/-! ### What is assumed of what the model leaves open -/

/-- Hash tables are enumerated in some order, each element once; the solver answers an optimal vertex whenever there is one;
single precision arithmetic is sane. -/
structure Env.Fair {C : Type} (E : Env C) (w : World) (g : KGraph) : Prop where
  graph : Enumeration w g (E.graph w g)
  dot : (E.dotNodes w g).Perm g.nodes
  buf : ∀ l, (E.bufOrder l).Perm l
  solve : ∀ st, (∃ x, Optimal st x ∧ Extreme st x) → ∃ x, E.solve st = .solved x ∧ Optimal st x ∧ Extreme st x
  /-- What `comb_pipeline_finishes` needs of single precision: at the first layer, whose weight is 0, the load is not above the average. -/
  arith : E.arith.Sane

/-- Widths determine signedness, except for widths whose values are nowhere delayed (C38). -/
def Signs (w : World) (g : KGraph) : Prop := SignsByWidth w.view g.nodes ∨ ∃ ex, SignsBut w.view g.nodes ex

/-! ### Proofs -/

/-- Every operation is converted. -/
theorem converted_of {V : Nat → NodeV} {order : List Nat} {lat : Nat → Int} (K : Compilable V order lat) {bs : List (Sched.Chan × Int)}
    (hbs : ∀ p ∈ bs, p.1 ∈ channels (progOf (block V order))) {X : Prog} (h : applySchedule (progOf (block V order)) bs = .ok X) (hno : NoOffsets X)
    {blk : List Nat} (hblk : BlockOrder X blk) (hmix : NoMixedBuffers (opTy (opsOf (block V order))) X) :
    converted X (circuitOf (opsOf (block V order)) X lat blk) = true := by
  let port : String → Nat → Nat := fun _ _ => 0
  let oob : Hw.FVal → List Hw.FVal → Hw.FVal := fun c alts => alts.headD c
  have hp : PortsOK V order port := ⟨fun n _ _ t => Nat.two_pow_pos _, fun n _ _ _ t => rfl⟩
  have ho : OobOK oob := by
    intro s w c alts hne hall
    cases alts with
    | nil => exact absurd rfl hne
    | cons a l => exact hall a (by simp)
  obtain ⟨Cx, hr, hd⟩ := K.ctx hbs h hno hblk.1 hblk.2 hmix hp ho
  obtain ⟨σ, hσ⟩ := Cx.run_exists hr hd (fun _ _ => 0)
  unfold converted
  rw [List.all_eq_true]
  intro v hv
  rw [List.mem_range] at hv
  by_cases hne : X.defn v = .erased
  · simp [hne]
  · obtain ⟨hop, -⟩ := Cx.run_fits hr hd hσ v hv hne
    obtain ⟨x, hx, -⟩ := Cx.step hv hne (fun _ => 0) σ hop 0
    have : circuitOf (opsOf (block V order)) X lat blk v ≠ .gone := by
      intro e; rw [e] at hx; simp [cellOut] at hx
    simp [this]

section
variable {C : Type} {F : FloatOps} {w : World} {g : KGraph} {E : Env C}

theorem build_ok (h : Hist F Proper World.init w) (hf : Finished w g) (hE : E.Fair w g) :
    ∃ order prog, TopSort.topSort (E.graph w g) = .ok order ∧ buildBody w.view order = .ok prog ∧ build E w g = .ok (.dfcir prog) := by
  obtain ⟨order, h1, h2, h3, h4, -⟩ := finished_kernel_is_processable h hf hE.graph
  have hb := buildBody_exact w.view order h3 h4
  exact ⟨order, _, h1, hb, by unfold build; rw [h1]; simp only [hb]⟩

/-- ASAP scheduling and conversion succeed, and the result is a design of `Scheduled`. -/
theorem asap_lowers (h : Hist F Proper World.init w) (hf : Finished w g) (hE : E.Fair w g) (file : Option Config.JsonDoc)
    (H : HwHandled w.view (fun n => nodeLatency file (w.view n)) g.nodes) (hs : Signs w g) :
    ∃ prog bs X att, build E w g = .ok (.dfcir prog) ∧ asapPass E file (.dfcir prog) = some (.scheduled prog bs X att) ∧
      (List.range X.size).all (verifyValue prog X) = true ∧ converted X (design prog bs X att) = true ∧
      Scheduled w g file (design prog bs X att) X.size ∧ Pass w g file true prog bs X att := by
  obtain ⟨order, h1, h2, h3, h4, -⟩ := finished_kernel_is_processable h hf hE.graph
  have hb := buildBody_exact w.view order h3 h4
  have K := H.compilable h2 h3 h4 (latOf_ok file h4) (fun n hn => latOf_node file hn (h4 n hn))
  have hP := block_wf K.topo K.compl K.offs
  have hperm := hE.buf (buffersFor (progOf (block w.view order)) (latOf file (opsOf (block w.view order)))
    (asap (progOf (block w.view order)) (latOf file (opsOf (block w.view order)))).time)
  obtain ⟨X, g1, g2, -, -⟩ := asap_pipeline_correct hP (block_small K.topo K.compl K.few) (latOk K)
    (fun o ho => absurd ho (block_readOutputs K.topo K.compl (H.reads' h2))) _ hperm
  have hbs : ∀ p ∈ E.bufOrder (buffersFor (progOf (block w.view order)) (latOf file (opsOf (block w.view order)))
    (asap (progOf (block w.view order)) (latOf file (opsOf (block w.view order)))).time), p.1 ∈ channels (progOf (block w.view order)) :=
    fun p hp => (buffersFor_mem.1 (hperm.mem_iff.1 hp)).1
  have hmix : NoMixedBuffers (opTy (opsOf (block w.view order))) X := by
    rcases hs with hs | ⟨ex, hs⟩
    · exact K.noMixed (fun m hm n hn => hs m (h2.mem_iff.mp hm) n (h2.mem_iff.mp hn)) hbs g1
    · exact asap_noMixed h hf hE.graph file H hs h1 hb hperm g1
  have hblk := (schedLines_inv h3 h4 (fun n hn => H.offs n (h2.mem_iff.mp hn)) hbs g1).blockOrder
  refine ⟨block w.view order, E.bufOrder (buffersFor (progOf (block w.view order)) (latOf file (opsOf (block w.view order)))
    (asap (progOf (block w.view order)) (latOf file (opsOf (block w.view order)))).time), X, latOf file (opsOf (block w.view order)), ?_, ?_, ?_, ?_, ?_, ?_⟩
  · unfold build; rw [h1]; show (match buildBody w.view order with | .ok prog => _ | .error f => _) = _; rw [hb]; rfl
  · unfold asapPass; simp only [g1]
  · rw [List.all_eq_true]
    intro v hv
    exact scheduled_verifies h4 (fun n => hist_kinds h n) h3 (fun n hn => H.offs n (h2.mem_iff.mp hn))
      (fun n hn => produced_dialect H n (h2.mem_iff.mp hn)) hbs g1 v (List.mem_range.mp hv)
  · unfold design; rw [posLat_latOf]; exact converted_of K hbs g1 g2 hblk hmix
  · unfold design; rw [posLat_latOf]; exact .asap hE.graph h1 hb hperm g1 hblk
  · exact .asap hE.graph h1 hb hperm g1

/-- The same with the linear programming pass. -/
theorem linear_lowers (h : Hist F Proper World.init w) (hf : Finished w g) (hE : E.Fair w g) (file : Option Config.JsonDoc)
    (H : HwHandled w.view (fun n => nodeLatency file (w.view n)) g.nodes) (hs : Signs w g) :
    ∃ prog bs X att, build E w g = .ok (.dfcir prog) ∧ linearPass E file (.dfcir prog) = some (.scheduled prog bs X att) ∧
      (List.range X.size).all (verifyValue prog X) = true ∧ converted X (design prog bs X att) = true ∧
      Scheduled w g file (design prog bs X att) X.size ∧ Pass w g file true prog bs X att := by
  obtain ⟨order, h1, h2, h3, h4, -⟩ := finished_kernel_is_processable h hf hE.graph
  have hb := buildBody_exact w.view order h3 h4
  have K := H.compilable h2 h3 h4 (latOf_ok file h4) (fun n hn => latOf_node file hn (h4 n hn))
  have hP := block_wf K.topo K.compl K.offs
  obtain ⟨x, e, hopt, hext⟩ := hE.solve (lpBuild (progOf (block w.view order)) (latOf file (opsOf (block w.view order)))) (by
    obtain ⟨x, hx, hext, -⟩ := lp_has_optimal_vertex hP (latOf file (opsOf (block w.view order)))
    exact ⟨x, hx, hext⟩)
  have hi := lp_vertex_integral hP hext
  have hsch := lp_schedule hP hopt.1 hi
  have hbe := lpBuffers_eq hP hopt.1 hi
  have hperm : (E.bufOrder (lpBuffers (progOf (block w.view order)) (lpBuild (progOf (block w.view order)) (latOf file (opsOf (block w.view order))))
      (.solved x))).Perm (buffersFor (progOf (block w.view order)) (latOf file (opsOf (block w.view order)))
        (intTimes (progOf (block w.view order)) (latOf file (opsOf (block w.view order))) x)) := by rw [← hbe]; exact hE.buf _
  obtain ⟨X, g1, g2, -, -⟩ := schedule_pipeline_correct hP (block_small K.topo K.compl K.few) (latOk K) hsch
    (fun o ho => absurd ho (block_readOutputs K.topo K.compl (H.reads' h2))) _ hperm
  have hrun : lpRun (progOf (block w.view order)) (latOf file (opsOf (block w.view order))) (.solved x) E.bufOrder = .ok ⟨X, 0⟩ := by
    simp only [lpRun, g1]
  have hbs := fun p hp => (buffersFor_mem.1 (hperm.mem_iff (a := p) |>.1 hp)).1
  have hmix : NoMixedBuffers (opTy (opsOf (block w.view order))) X := by
    rcases hs with hs | ⟨ex, hs⟩
    · exact K.noMixed (fun m hm n hn => hs m (h2.mem_iff.mp hm) n (h2.mem_iff.mp hn)) hbs g1
    · exact lp_noMixed h hf hE.graph file H hs h1 hb hopt hext hE.buf hrun
  have hblk := (schedLines_inv h3 h4 (fun n hn => H.offs n (h2.mem_iff.mp hn)) hbs g1).blockOrder
  refine ⟨block w.view order, E.bufOrder (lpBuffers (progOf (block w.view order)) (lpBuild (progOf (block w.view order))
    (latOf file (opsOf (block w.view order)))) (.solved x)), X, latOf file (opsOf (block w.view order)), ?_, ?_, ?_, ?_, ?_, ?_⟩
  · unfold build; rw [h1]; show (match buildBody w.view order with | .ok prog => _ | .error f => _) = _; rw [hb]; rfl
  · unfold linearPass; simp only [e, hrun]
  · rw [List.all_eq_true]
    intro v hv
    exact scheduled_verifies h4 (fun n => hist_kinds h n) h3 (fun n hn => H.offs n (h2.mem_iff.mp hn))
      (fun n hn => produced_dialect H n (h2.mem_iff.mp hn)) hbs g1 v (List.mem_range.mp hv)
  · unfold design; rw [posLat_latOf]; exact converted_of K hbs g1 g2 hblk hmix
  · unfold design; rw [posLat_latOf]; exact .lp hE.graph h1 hb hopt hext hE.buf hrun hblk
  · exact .lp hE.graph h1 hb hopt hext (hE.buf _) g1

/-- Combinational pipelining and conversion of a kernel without offsets succeed. -/
theorem comb_lowers (h : Hist F Proper World.init w) (hf : Finished w g) (hE : E.Fair w g) (file : Option Config.JsonDoc)
    (H : HwHandled w.view (fun _ => 0) g.nodes) (hof : ∀ n ∈ g.nodes, (w.view n).op ≠ .OFFSET) {stages : Nat} (hst : stages < 2 ^ 31)
    (hs : stages = 0 ∨ SignsByWidth w.view g.nodes) :
    ∃ prog bs X att, build E w g = .ok (.dfcir prog) ∧ combPass E stages (.dfcir prog) = some (.scheduled prog bs X att) ∧
      (List.range X.size).all (verifyValue prog X) = true ∧ converted X (design prog bs X att) = true ∧
      Compiled w g file (design prog bs X att) X.size ∧ Pass w g file false prog bs X att := by
  obtain ⟨order, h1, h2, h3, h4, -⟩ := finished_kernel_is_processable h hf hE.graph
  have hb := buildBody_exact w.view order h3 h4
  have K : Compilable w.view order (fun _ => 0) := H.compilable h2 h3 h4
    ⟨fun _ => Int.le_refl _, fun _ _ _ => rfl, fun _ _ => rfl⟩ (fun n hn => rfl)
  have hP := block_wf K.topo K.compl K.offs
  have hsm := block_small K.topo K.compl K.few
  have hK : CombKernel (progOf (block w.view order)) := Sdf.combKernel_of h3 h2 h4 hof H.reads
  have hargs : ∀ i < (progOf (block w.view order)).size, (progOf (block w.view order)).defn i ≠ .node [] := by
    intro i hi hd
    rw [progOf_size] at hi
    obtain ⟨hn, he⟩ := value_is_node h3.nodup hi
    generalize order[i] = n at hn he
    subst he
    rw [progOf_defn _ hn (h4 n hn)] at hd
    exact absurd hd (by
      have hc := h4 n hn
      unfold defOf
      cases ho : (w.view n).op
      case NONE => exact absurd ho hc.notNone
      case IN => by_cases hk : (w.view n).kind = .stream <;> simp [hk]
      case OFFSET => exact absurd ho (hof n (h2.mem_iff.mp hn))
      case MUX => obtain ⟨-, c, alts, he⟩ := hc.mux ho; simp [he]
      case CONST => simp
      case OUT => simp
      case NOT | NEG | CAST | SHL | SHR | BITS => obtain ⟨s, he⟩ := hc.unary (by rw [ho]; decide); simp [he]
      all_goals obtain ⟨s, s', he⟩ := hc.binary (by rw [ho]; decide); simp [he])
  obtain ⟨X, hX⟩ := comb_pipeline_finishes hP hsm hK hargs E.arith hE.arith stages hst E.bufOrder hE.buf
  have hpass : Pass w g file false (block w.view order) (combInserted E stages (progOf (block w.view order))) X (fun _ => -1) := by
    by_cases hs0 : stages = 0
    · have e : X = progOf (block w.view order) := by
        rw [combPipeline, if_pos hs0] at hX
        cases hX; rfl
      rw [e, combInserted, if_pos hs0]
      exact .comb0 hE.graph h1 hb hof
    · rw [combPipeline, if_neg hs0] at hX
      rw [combInserted, if_neg hs0]
      cases hcb : combBuffers E.arith stages (progOf (block w.view order)) with
      | error f => rw [hcb] at hX; cases hX
      | ok bs' => rw [hcb] at hX; exact .comb hE.graph h1 hb hof (by omega) hst hcb (hE.buf _) hX
  obtain ⟨order', -, -, -, -, hbs, g1⟩ := hpass.applied h hf H.offs H.reads
  have g2 : NoOffsets X := by
    by_cases hs0 : stages = 0
    · rw [combPipeline, if_pos hs0] at hX
      cases hX; exact hK.noOffset
    · rw [combPipeline, if_neg hs0] at hX
      cases hcb : combBuffers E.arith stages (progOf (block w.view order)) with
      | error f => rw [hcb] at hX; cases hX
      | ok bs' => rw [hcb] at hX; exact insertBuffers_noOffset _ hX hK.noOffset
  have hmix : NoMixedBuffers (opTy (opsOf (block w.view order))) X := by
    by_cases hs0 : stages = 0
    · rw [combPipeline, if_pos hs0] at hX
      have e : X = progOf (block w.view order) := (Except.ok.inj hX).symm
      rw [e]; exact block_noMixed K
    · have hs' := hs.resolve_left hs0
      exact K.noMixed (fun m hm n hn => hs' m (h2.mem_iff.mp hm) n (h2.mem_iff.mp hn)) hbs g1
  have hblk := (schedLines_inv h3 h4 (fun n hn => H.offs n (h2.mem_iff.mp hn)) hbs g1).blockOrder
  refine ⟨block w.view order, combInserted E stages (progOf (block w.view order)), X, fun _ => -1, ?_, ?_, ?_, ?_, ?_, ?_⟩
  · unfold build; rw [h1]; show (match buildBody w.view order with | .ok prog => _ | .error f => _) = _; rw [hb]; rfl
  · unfold combPass; simp only [hX]
  · rw [List.all_eq_true]
    intro v hv
    exact scheduled_verifies h4 (fun n => hist_kinds h n) h3 (fun n hn => H.offs n (h2.mem_iff.mp hn))
      (fun n hn => produced_dialect H n (h2.mem_iff.mp hn)) hbs g1 v (List.mem_range.mp hv)
  · unfold design; rw [posLat_unset]; exact converted_of K hbs g1 g2 hblk hmix
  · unfold design; rw [posLat_unset]; exact .comb hE.graph h1 hb hst hE.buf hX hblk
  · exact hpass

end

end Verif.Whole
