import Verif.Vlog.Circuit
import Verif.Sdf.Fit
/-
Which designs have latencies below 2^31 (a hypothesis of C80).
-/
namespace Verif.Vlog
open Verif.Hw Verif.Flow Verif.Dfcxx Verif.Sched Verif.Sdf

/-- No unit has more than `L` stages. -/
def AtMost (file : Option Config.JsonDoc) (L : Nat) : Prop := ∀ k fl, Config.unitLatency file k fl ≤ L

/-- (`L` + the sum of the offsets) · (the number of nodes + 1) is below 2^31. -/
def ModestWith (V : Nat → NodeV) (nodes : List Nat) (L : Nat) : Prop :=
  (L + (nodes.map fun n => away (V n)).sum) * ((nodes.length : Int) + 1) < 2 ^ 31

theorem atMost_any (file : Option Config.JsonDoc) : AtMost file 65535 := fun k fl => by have := unitLatency_lt file k fl; omega

theorem atMost_none : AtMost none 1 := fun k fl => by cases k <;> cases fl <;> decide

theorem circuit_bounded (ops : List OpInfo) {X : Prog} {lat : Nat → Int} {blk : List Nat} (hb : BlockOrder X blk) (hl : ∀ v, lat v ≤ 2 ^ 31)
    (hx : ∀ v s k, X.defn v = .latency s k → k ≤ 2 ^ 31) : Bounded (circuitOf ops X lat blk) X.size := by
  intro v hv m args hcell
  have hlk := cell_inst hcell
  have hvb := (hb.2 v).mpr hv
  have hsome : ∃ o, hwOpOf ops X lat v = some o := by
    have := mem_of_lookup_nat hlk
    unfold instances at this
    have := (List.of_mem_zip this).1
    obtain ⟨p, hp, rfl⟩ := List.mem_map.mp this
    obtain ⟨u, hu, e⟩ := List.mem_filterMap.mp hp
    cases hq : hwOpOf ops X lat u with
    | none => rw [hq] at e; cases e
    | some o => rw [hq] at e; cases e; exact ⟨o, hq⟩
  obtain ⟨o, ho⟩ := hsome
  obtain ⟨u, op', hu, huo, e, -⟩ := instances_lookup ops X lat hb.1 hvb ho
  have em : m = createModule op' := Option.some.inj (hlk.symm.trans e)
  subst em
  have key : ∀ z : Int, z ≤ 2 ^ 31 → posLatency z ≤ 2 ^ 31 := by
    intro z hz
    unfold posLatency
    split
    · norm_num at hz ⊢; omega
    · norm_num
  unfold hwOpOf at huo
  split at huo
  · rename_i s k hd
    cases huo
    exact key _ (hx u s k hd)
  · split at huo
    · rename_i o' _
      cases hk : unitOf o'.kind with
      | none => rw [hk] at huo; cases huo
      | some k => rw [hk] at huo; cases huo; exact key _ (hl u)
    · cases huo
  · cases huo

theorem latOf_atMost {file : Option Config.JsonDoc} {L : Nat} (h : AtMost file L) (ops : List OpInfo) (v : Nat) : 0 ≤ latOf file ops v ∧ latOf file ops v ≤ L := by
  unfold latOf
  split
  · split
    · rename_i o _ _ k _
      have := h k (isFloatTy o.ty)
      omega
    · omega
  · omega

theorem block_modestWith {V : Nat → NodeV} {nodes order : List Nat} {L : Nat} {file : Option Config.JsonDoc} (hL : AtMost file L) (hm : ModestWith V nodes L)
    (hto : TopoOrder V order) (hp : order.Perm nodes) (hc : ∀ n ∈ order, Complete V n) :
    Modest (progOf (block V order)) (latOf file (opsOf (block V order))) L := by
  refine ⟨latOf_atMost hL _, ?_⟩
  have h1 := offsetSum_le hto hc
  rw [(hp.map fun n => away (V n)).sum_eq] at h1
  unfold ModestWith at hm
  rw [progOf_size, hp.length_eq]
  refine lt_of_le_of_lt ?_ hm
  refine mul_le_mul_of_nonneg_right (by omega) (by positivity)

section
variable {F : FloatOps} {w : World} {g : KGraph} {file : Option Config.JsonDoc} {cells : Nat → Cell} {size : Nat}

/-- Designs of the two schedulers. -/
theorem scheduled_bounded (h : Hist F Proper World.init w) (hf : Finished w g) {L' : Nat → Nat} (H : HwHandled w.view L' g.nodes) {L : Nat}
    (hL : AtMost file L) (hm : ModestWith w.view g.nodes L) (hc : Scheduled w g file cells size) : Bounded cells size := by
  have hlat : ∀ ops v, latOf file ops v ≤ 2 ^ 31 := fun ops v => by
    have := (latOf_bounds file ops v).2
    norm_num
    omega
  cases hc with
  | asap he ht hb hp ha hk =>
    rename_i G order prog bs X blk
    obtain ⟨order', h1, h2, h3, h4, -⟩ := finished_kernel_is_processable h hf he
    rw [ht] at h1; cases h1
    rw [buildBody_exact w.view order h3 h4] at hb
    have hb' : prog = block w.view order := (Except.ok.inj hb).symm
    subst hb'
    have hP := block_wf h3 h4 (fun n hn => H.offs n (h2.mem_iff.mp hn))
    refine circuit_bounded _ hk (hlat _) fun v s k hd => ?_
    obtain ⟨c, hcb⟩ := (applySchedule_facts hP (fun v hv => progOf_beyond _ _ hv) ha).2 v s k hd
    have := asap_buffers_fit hP (block_modestWith hL hm h3 h2 h4) _ (hp.mem_iff.1 hcb)
    exact le_of_lt this
  | lp he ht hb ho hx hp ha hk =>
    rename_i G order prog x perm r blk
    obtain ⟨order', h1, h2, h3, h4, -⟩ := finished_kernel_is_processable h hf he
    rw [ht] at h1; cases h1
    rw [buildBody_exact w.view order h3 h4] at hb
    have hb' : prog = block w.view order := (Except.ok.inj hb).symm
    subst hb'
    have hP := block_wf h3 h4 (fun n hn => H.offs n (h2.mem_iff.mp hn))
    unfold lpRun at ha
    cases hap : applySchedule (progOf (block w.view order)) (perm (lpBuffers (progOf (block w.view order))
      (lpBuild (progOf (block w.view order)) (latOf file (opsOf (block w.view order)))) (.solved x))) with
    | error f => rw [hap] at ha; cases ha
    | ok X =>
      rw [hap] at ha
      cases ha
      refine circuit_bounded _ hk (hlat _) fun v s k hd => ?_
      obtain ⟨c, hcb⟩ := (applySchedule_facts hP (fun v hv => progOf_beyond _ _ hv) hap).2 v s k hd
      exact le_of_lt (lp_buffers_fit hP (block_modestWith hL hm h3 h2 h4) hx _ ((hp _).mem_iff.1 hcb)).2

/-- Designs of combinational pipelining: always. -/
theorem comb_pipeline_bounded (h : Hist F Proper World.init w) (hf : Finished w g) {L' : Nat → Nat} (H : HwHandled w.view L' g.nodes)
    (hc : Compiled w g file cells size) : Scheduled w g file cells size ∨ Bounded cells size := by
  cases hc with
  | asap he ht hb hp ha hk => exact .inl (.asap he ht hb hp ha hk)
  | lp he ht hb ho hx hp ha hk => exact .inl (.lp he ht hb ho hx hp ha hk)
  | comb he ht hb hst hp hX hk =>
    rename_i G order prog A stages perm X blk
    right
    obtain ⟨order', h1, h2, h3, h4, -⟩ := finished_kernel_is_processable h hf he
    rw [ht] at h1; cases h1
    rw [buildBody_exact w.view order h3 h4] at hb
    have hb' : prog = block w.view order := (Except.ok.inj hb).symm
    subst hb'
    have hP := block_wf h3 h4 (fun n hn => H.offs n (h2.mem_iff.mp hn))
    have hno : ∀ i s k, (progOf (block w.view order)).defn i ≠ .latency s k := by
      intro i s k hd
      by_cases hi : i < (progOf (block w.view order)).size
      · exact (hP.fresh i hi).1 _ _ hd
      · rw [progOf_beyond _ _ (by omega)] at hd; cases hd
    refine circuit_bounded _ hk (fun _ => by norm_num) fun v s k hd => ?_
    unfold combPipeline at hX
    split at hX
    · cases hX; exact absurd hd (hno _ _ _)
    · cases hcb : combBuffers A stages (progOf (block w.view order)) with
      | error f => rw [hcb] at hX; cases hX
      | ok bs =>
        rw [hcb] at hX
        rcases insertBuffers_latency _ hX hd with ⟨c, hc⟩ | ⟨s', h'⟩
        · have hp' := (hp _).mem_iff.1 hc
          unfold combBuffers at hcb
          split at hcb
          · cases hcb
          · simp only at hcb
            split at hcb
            · cases hcb
            · cases hcb
              unfold calculateFIFOs at hp'
              obtain ⟨c, hc, e⟩ := List.mem_filterMap.mp hp'
              have hw : ∀ z : Int, wrap32 z ≤ 2 ^ 31 := by
                intro z
                have := @BitVec.toInt_lt 32 (BitVec.ofInt 32 z)
                unfold wrap32
                norm_num at this ⊢
                omega
              simp only at e
              repeat' split at e
              all_goals first
                | (cases e; done)
                | (have e2 := congrArg Prod.snd (Option.some.inj e)
                   simp only at e2
                   rw [← e2]
                   exact hw _)
        · exact absurd h' (hno _ _ _)

/-- **C80, its bound.**  If no unit has more than `L` stages and (`L` + offsets) · (nodes + 1) is below 2^31, the design has no latency above 2^31. -/
theorem compiled_bounded (h : Hist F Proper World.init w) (hf : Finished w g) {L' : Nat → Nat} (H : HwHandled w.view L' g.nodes) {L : Nat}
    (hL : AtMost file L) (hm : ModestWith w.view g.nodes L) (hc : Compiled w g file cells size) : Bounded cells size := by
  rcases comb_pipeline_bounded h hf H hc with h1 | h1
  · exact scheduled_bounded h hf H hL hm h1
  · exact h1

/-- A kernel without offsets that has at most `n` nodes, and a configuration with at most `L` stages. -/
theorem modestWith_of {w : World} {nodes : List Nat} {n L : Nat} (hof : ∀ m ∈ nodes, (w.view m).op ≠ .OFFSET) (hn : nodes.length ≤ n)
    (h : L * (n + 1) < 2 ^ 31) : ModestWith w.view nodes L := by
  have : (nodes.map fun n => away (w.view n)).sum = 0 := by
    refine List.sum_eq_zero fun z hz => ?_
    obtain ⟨m, hm, rfl⟩ := List.mem_map.mp hz
    unfold away
    split
    · rename_i h1 _; exact absurd h1 (hof m hm)
    · rfl
  unfold ModestWith
  rw [this]
  have h1 : L * (nodes.length + 1) ≤ L * (n + 1) := Nat.mul_le_mul_left _ (by omega)
  have h2 : L * (nodes.length + 1) < 2 ^ 31 := by omega
  have : ((L * (nodes.length + 1) : Nat) : Int) < 2 ^ 31 := by exact_mod_cast h2
  push_cast at this
  simpa using this

end
end Verif.Vlog
