import Verif.Sdf.Props
import Verif.Sched.Range
/-
C82 at the level of kernels: a bound on the number of nodes and the offsets of a kernel under which no length of a buffer leaves `int32_t`,
whatever the latency configuration.
-/
namespace Verif.Sdf
open Verif.Dfcxx Verif.Flow Verif.Sched

/-- How far a node looks away. -/
def away (v : NodeV) : Int := match v.op, v.data with
  | .OFFSET, .offset k => |k|
  | _, _ => 0

/-- A modest kernel: (65535 + the sum of its offsets) · (the number of its nodes + 1) is below 2^31; without offsets, up to 32766 nodes. -/
def ModestKernel (V : Nat → NodeV) (nodes : List Nat) : Prop :=
  (65535 + (nodes.map fun n => away (V n)).sum) * ((nodes.length : Int) + 1) < 2 ^ 31

theorem sum_range_getD (f : Nat → Int) : ∀ l : List Nat, ∑ i ∈ Finset.range l.length, f (l.getD i 0) = (l.map f).sum
  | [] => by simp
  | a :: l => by
    rw [List.length_cons, Finset.sum_range_succ']
    simp only [List.getD_cons_succ, List.getD_cons_zero, List.map_cons, List.sum_cons]
    rw [sum_range_getD f l, add_comm]

theorem latOf_bounds (file : Option Config.JsonDoc) (ops : List OpInfo) (v : Nat) : 0 ≤ latOf file ops v ∧ latOf file ops v ≤ 65535 := by
  unfold latOf
  split
  · split
    · rename_i o _ _ k _
      have := unitLatency_lt file k (isFloatTy o.ty)
      omega
    · omega
  · omega

theorem reach_le (V : Nat → NodeV) (idx : Nat → Nat) (n : Nat) : (defOf V idx n).reach ≤ away (V n) := by
  have h0 : 0 ≤ away (V n) := by unfold away; split <;> simp
  unfold defOf
  split
  case h_4 =>
    split
    · rename_i ho _ _ _ _ _ h
      simp [Def.reach, away, h, ho]
    · simpa [Def.reach] using h0
  all_goals first
    | (split <;> simpa [Def.reach] using h0)
    | simpa [Def.reach] using h0

theorem offsetSum_le {V : Nat → NodeV} {order : List Nat} (hto : TopoOrder V order) (hc : ∀ n ∈ order, Complete V n) :
    offsetSum (progOf (block V order)) ≤ (order.map fun n => away (V n)).sum := by
  unfold offsetSum
  rw [progOf_size, ← sum_range_getD]
  refine Finset.sum_le_sum fun i hi => ?_
  obtain ⟨h1, h2⟩ := value_is_node hto.nodup (Finset.mem_range.1 hi)
  have e : order.getD i 0 = order[i]'(Finset.mem_range.1 hi) := by
    rw [List.getD_eq_getElem?_getD, List.getElem?_eq_getElem (Finset.mem_range.1 hi)]; rfl
  rw [e]
  have := progOf_defn V h1 (hc _ h1)
  rw [h2] at this
  rw [this]
  exact reach_le V _ _

theorem away_sum_nonneg (V : Nat → NodeV) (l : List Nat) : 0 ≤ (l.map fun n => away (V n)).sum := by
  refine List.sum_nonneg fun q hq => ?_
  obtain ⟨v, -, rfl⟩ := List.mem_map.1 hq
  unfold away
  split <;> simp

/-- The block of a modest kernel is modest, with every latency configuration. -/
theorem block_modest {V : Nat → NodeV} {nodes order : List Nat} (hm : ModestKernel V nodes) (hto : TopoOrder V order) (hp : order.Perm nodes)
    (hc : ∀ n ∈ order, Complete V n) (file : Option Config.JsonDoc) :
    Modest (progOf (block V order)) (latOf file (opsOf (block V order))) 65535 := by
  refine ⟨latOf_bounds _ _, ?_⟩
  have h1 := offsetSum_le hto hc
  rw [(hp.map fun n => away (V n)).sum_eq] at h1
  unfold ModestKernel at hm
  rw [progOf_size, hp.length_eq]
  refine lt_of_le_of_lt ?_ hm
  refine mul_le_mul_of_nonneg_right (by omega) (by positivity)

section
variable {F : FloatOps} {w : World} {g : KGraph} {file : Option Config.JsonDoc} {conf : Bool} {prog : List DStmt} {bs : List (Sched.Chan × Int)}
  {X : Prog} {att : Nat → Int}

/-- **C82, kernels.**  No buffer inserted into a modest kernel, by whichever pass, is 2^31 cycles long or longer. -/
theorem Pass.fits (h : Hist F Proper World.init w) (hf : Finished w g)
    (ho : ∀ n ∈ g.nodes, ∀ k, (w.view n).data = .offset k → -(2 ^ 31 : Int) ≤ k ∧ k < 2 ^ 31)
    (hm : ModestKernel w.view g.nodes) (hp : Pass w g file conf prog bs X att) : ∀ p ∈ bs, p.2 < 2 ^ 31 := by
  cases hp with
  | @asap G order _ _ _ he ht hb hbs ha =>
    obtain ⟨order', h1, h2, h3, h4, -⟩ := finished_kernel_is_processable h hf he
    rw [ht] at h1; cases h1
    rw [buildBody_exact w.view order h3 h4] at hb
    have hb' : prog = block w.view order := (Except.ok.inj hb).symm
    subst hb'
    have hP := block_wf h3 h4 (fun n hn => ho n (h2.mem_iff.mp hn))
    exact fun p hp => asap_buffers_fit hP (block_modest hm h3 h2 h4 file) p (hbs.mem_iff.1 hp)
  | @lp G order _ x _ _ he ht hb hopt hext hbs ha =>
    obtain ⟨order', h1, h2, h3, h4, -⟩ := finished_kernel_is_processable h hf he
    rw [ht] at h1; cases h1
    rw [buildBody_exact w.view order h3 h4] at hb
    have hb' : prog = block w.view order := (Except.ok.inj hb).symm
    subst hb'
    have hP := block_wf h3 h4 (fun n hn => ho n (h2.mem_iff.mp hn))
    exact fun p hp => (lp_buffers_fit hP (block_modest hm h3 h2 h4 file) hext p (hbs.mem_iff.1 hp)).2
  | @comb0 G order _ he ht hb hof => simp
  | @comb G order _ A stages _ bs' _ he ht hb hof hs hst hcb hbs ha =>
    intro p hp
    have hp' := hbs.mem_iff.1 hp
    unfold combBuffers at hcb
    split at hcb
    · cases hcb
    · simp only at hcb
      split at hcb
      · cases hcb
      · cases hcb
        unfold calculateFIFOs at hp'
        obtain ⟨c, hc, e⟩ := List.mem_filterMap.mp hp'
        have hw : ∀ z : Int, wrap32 z < 2 ^ 31 := by
          intro z
          have := @BitVec.toInt_lt 32 (BitVec.ofInt 32 z)
          unfold wrap32
          norm_num at this ⊢
          omega
        simp only at e
        repeat' split at e
        all_goals first
          | (cases e; done)
          | (have e2 := congrArg Prod.snd (Option.some.inj e)
             simp only at e2
             rw [← e2]
             exact hw _)

end
end Verif.Sdf
