import Verif.Sched.LpLemmas
import Mathlib.Algebra.Order.BigOperators.Group.List
/-
Properties C28-C31, C52: the linear-programming scheduler.
-/
namespace Verif.Sched
open Verif.Dfcxx (Fault)

/-! ### C29: satisfiable and bounded -/

theorem exists_bound (l : List Int) : ∃ M : Int, 0 ≤ M ∧ ∀ w ∈ l, w ≤ M := by
  induction l with
  | nil => exact ⟨0, by omega, by simp⟩
  | cons a l ih =>
    obtain ⟨M, h1, h2⟩ := ih
    refine ⟨max a M, le_trans h1 (le_max_right _ _), ?_⟩
    intro w hw
    rcases List.mem_cons.1 hw with rfl | hw
    · exact le_max_left _ _
    · exact le_trans (h2 w hw) (le_max_right _ _)

/-- **C29.**  For every well-formed kernel, latency assignment and offsets, the problem handed to the solver has an
integral feasible point, and its objective is bounded below by 0 -- so the solver can report neither "infeasible" nor
"unbounded". -/
theorem lp_satisfiable {P : Prog} (hP : WF P) (lat : Nat → Int) :
    (∃ x, Feasible (lpBuild P lat) x ∧ Integral (lpBuild P lat) x) ∧
    ∀ x, Feasible (lpBuild P lat) x → 0 ≤ objective (lpBuild P lat) x := by
  constructor
  · obtain ⟨M, hM, hle⟩ := exists_bound ((channels P).map (weight lat))
    let Z : Nat → Int := fun n => if (P.defn n).isInput then 0 else n * M
    have hZ0 : ∀ n, 0 ≤ Z n := by
      intro n; simp only [Z]; split
      · omega
      · exact Int.mul_nonneg (by omega) hM
    have hZ : ∀ c ∈ channels P, Z c.src + M ≤ Z c.tgt := by
      intro c hc
      have hlt := chan_lt hP hc
      have hti : (P.defn c.tgt).isInput = false := by
        obtain ⟨_, h2⟩ := mem_channels.1 hc
        unfold inChans at h2
        split at h2
        · rename_i h; rw [h]; rfl
        · rename_i h; rw [h]; rfl
        · simp at h2
      simp only [Z, hti]
      have hm : ((c.src : Int) + 1) * M ≤ (c.tgt : Int) * M := Int.mul_le_mul_of_nonneg_right (by omega) hM
      have hs : 0 ≤ (c.src : Int) * M := Int.mul_nonneg (by omega) hM
      rw [Int.add_mul] at hm
      split <;> simp <;> omega
    have hR : RatSchedule P lat (fun n => (Z n : ℚ)) := by
      refine ⟨fun n _ => by exact_mod_cast hZ0 n, fun n _ hi => by simp [Z, hi], ?_, ?_⟩
      · intro c hc
        have h1 := hle (weight lat c) (List.mem_map.2 ⟨c, hc, rfl⟩)
        have h2 := hZ c hc
        have : weight lat c ≤ Z c.tgt - Z c.src := by omega
        exact_mod_cast this
      · intro c hc
        have h2 := hZ c hc
        have : 0 ≤ Z c.tgt - Z c.src := by omega
        exact_mod_cast this
    refine ⟨_, hR.feasible hP, ?_⟩
    intro v h1 h2
    rcases column_cases P lat h1 h2 with ⟨n, hn, rfl⟩ | ⟨i, c, hc, rfl⟩ | ⟨i, c, hc, rfl⟩
    · rw [pointOf_node lat _ hn]; exact ⟨_, rfl⟩
    · rw [pointOf_delta lat _ hc]; exact ⟨Z c.tgt - Z c.src, by push_cast; rfl⟩
    · rw [pointOf_buf lat _ hc]; exact ⟨Z c.tgt - Z c.src - weight lat c, by push_cast; rfl⟩
  · intro x hx
    unfold objective
    refine List.sum_nonneg ?_
    intro q hq
    obtain ⟨v, hv, rfl⟩ := List.mem_map.1 hq
    rw [(lpBuild_shape P lat).2.2.2.1] at hv
    obtain ⟨i, hi, rfl⟩ := List.mem_mapIdx.1 hv
    exact hx.nonneg _ (by unfold base; omega) (by rw [(lpBuild_shape P lat).2.1]; omega)

/-! ### C28: whatever feasible integral point the solver returns -/

/-- Integral start times in an answer. -/
def intTimes (P : Prog) (lat : Nat → Int) (x : Nat → ℚ) (n : Nat) : Int := ⌊startTimes P (lpBuild P lat) x n⌋

theorem intTimes_cast {P : Prog} {lat : Nat → Int} {x : Nat → ℚ} (hi : Integral (lpBuild P lat) x) {n : Nat}
    (hn : n ∈ nodesOf P) : (intTimes P lat x n : ℚ) = startTimes P (lpBuild P lat) x n := by
  obtain ⟨i, _, h2, h3⟩ := nodeMap_range lat hn
  have hcol := (lpBuild_shape P lat).2.1
  obtain ⟨z, hz⟩ := hi ((lpBuild P lat).nodeMap n) (by omega) (by omega)
  unfold intTimes
  rw [startTimes_node lat x hn, hz, Int.floor_intCast]

theorem lp_schedule {P : Prog} (hP : WF P) {lat : Nat → Int} {x : Nat → ℚ} (hx : Feasible (lpBuild P lat) x)
    (hi : Integral (lpBuild P lat) x) : Schedule P lat (intTimes P lat x) := by
  have hr := (hx.ratSchedule hP).1
  refine ⟨?_, ?_, ?_⟩
  · intro n
    unfold intTimes
    by_cases hn : n < P.size ∧ (P.defn n).isNode
    · exact Int.floor_nonneg.2 (hr.nonneg n (mem_nodesOf.2 hn))
    · simp [startTimes, hn]
  · intro n hn hd
    have hm : n ∈ nodesOf P := mem_nodesOf.2 ⟨hn, by rw [hd]; rfl⟩
    unfold intTimes
    rw [hr.input n hm (by rw [hd]; rfl)]; simp
  · intro y n k hn hdep
    obtain ⟨c, hc, rfl, rfl, rfl⟩ := dep_chan hP hn hdep
    obtain ⟨h1, h2⟩ := chan_nodes hP hc
    have h3 := hr.lat c hc
    rw [← intTimes_cast hi h1, ← intTimes_cast hi h2] at h3
    have : weight lat c ≤ intTimes P lat x c.tgt - intTimes P lat x c.src := by exact_mod_cast h3
    unfold weight at this; omega

theorem truncQ_int (z : Int) : truncQ (z : ℚ) = z := by
  unfold truncQ; split <;> simp

/-- The buffers read off an integral answer are those its start times ask for. -/
theorem lpBuffers_eq {P : Prog} (hP : WF P) {lat : Nat → Int} {x : Nat → ℚ} (hx : Feasible (lpBuild P lat) x)
    (hi : Integral (lpBuild P lat) x) :
    lpBuffers P (lpBuild P lat) (.solved x) = buffersFor P lat (intTimes P lat x) := by
  unfold lpBuffers buffersFor
  dsimp only
  rw [(lpBuild_shape P lat).2.2.1, List.mapIdx_eq_zipIdx_map, List.filterMap_map]
  have : ∀ p ∈ (channels P).zipIdx, truncQ (x (base P + 2 * p.2 + 1)) =
      intTimes P lat x p.1.tgt - (intTimes P lat x p.1.src + lat p.1.src + p.1.off) := by
    intro p hp
    have hc : (channels P)[p.2]? = some p.1 := by
      have := List.mem_zipIdx_iff_getElem?.1 hp
      simpa using this
    have hl := (List.getElem?_eq_some_iff.1 hc).1
    obtain ⟨h1, h2⟩ := chan_nodes hP (List.mem_of_getElem? hc)
    rw [(hx.ratSchedule hP).2 _ (by unfold base; omega) (by rw [(lpBuild_shape P lat).2.1]; omega),
      pointOf_buf lat _ hc, ← intTimes_cast hi h1, ← intTimes_cast hi h2]
    rw [show (intTimes P lat x p.1.tgt : ℚ) - intTimes P lat x p.1.src - weight lat p.1 =
      ((intTimes P lat x p.1.tgt - (intTimes P lat x p.1.src + lat p.1.src + p.1.off) : Int) : ℚ) by
        unfold weight; push_cast; ring]
    exact truncQ_int _
  have hz : (channels P) = (channels P).zipIdx.map Prod.fst := by simp
  conv_rhs => rw [hz, List.filterMap_map]
  refine List.filterMap_congr ?_
  intro p hp
  have := this p hp
  simp only [Function.comp, this]

/-- **C28.**  Whatever integral feasible point the solver returns (optimal or not, and in whatever order the buffer map
is iterated), the pass succeeds, no offset is left, and in every run of the resulting netlist each operation shows
element `t` of its stream at cycle `start + latency + t`, with the start times of that point.  (Outputs read inside
the kernel must not be delayed on their own connection; see `lp_optimal_readOutputsTight`.) -/
theorem lp_pipeline_correct {P : Prog} (hP : WF P) (hsm : Small P) {lat : Nat → Int} (hlat : LatOk P lat)
    {x : Nat → ℚ} (hx : Feasible (lpBuild P lat) x) (hi : Integral (lpBuild P lat) x)
    (hread : ReadOutputsTight P lat (intTimes P lat x))
    (perm : List (Chan × Int) → List (Chan × Int)) (hperm : ∀ l, (perm l).Perm l) :
    ∃ r, lpRun P lat (.solved x) perm = .ok r ∧ NoOffsets r.prog ∧
      ∀ (α : Type) (I : Interp α) (σ : Nat → Int → α), HwRun r.prog I lat σ →
        ∀ v < P.size, (P.defn v).isNode → ∀ t, 0 ≤ t → ∀ a, Sem P I v t a →
          ∃ T : Int, (T : ℚ) = startTimes P (lpBuild P lat) x v ∧ σ v (T + lat v + t) = a := by
  obtain ⟨P', h1, h2, _, h4⟩ := schedule_pipeline_correct hP hsm hlat (lp_schedule hP hx hi) hread
    (perm (lpBuffers P (lpBuild P lat) (.solved x))) (by rw [← lpBuffers_eq hP hx hi]; exact hperm _)
  refine ⟨⟨P', 0⟩, by simp only [lpRun, h1], h2, ?_⟩
  intro α I σ hrun v hv hnode t ht a hs
  exact ⟨_, intTimes_cast hi (mem_nodesOf.2 ⟨hv, hnode⟩), h4 α I σ hrun v hv hnode t ht a hs⟩

/-! #### Vertices of the problem are integral -/

theorem exists_eps (l : List ℚ) : ∃ ε : ℚ, 0 < ε ∧ ∀ s ∈ l, 0 < s → ε ≤ s := by
  induction l with
  | nil => exact ⟨1, by norm_num, by simp⟩
  | cons a l ih =>
    obtain ⟨ε, h1, h2⟩ := ih
    by_cases ha : 0 < a
    · refine ⟨min a ε, lt_min ha h1, ?_⟩
      intro s hs hp
      rcases List.mem_cons.1 hs with rfl | hs
      · exact min_le_left _ _
      · exact le_trans (min_le_right _ _) (h2 s hs hp)
    · refine ⟨ε, h1, ?_⟩
      intro s hs hp
      rcases List.mem_cons.1 hs with rfl | hs
      · exact absurd hp ha
      · exact h2 s hs hp

theorem fract_ne_of_slack {a b : ℚ} {z : Int} (h : Int.fract a ≠ Int.fract b) (hle : (z : ℚ) ≤ a - b) : 0 < a - b - z := by
  rcases lt_or_eq_of_le hle with h1 | h1
  · linarith
  · exfalso; apply h
    have : a = b + z := by linarith
    rw [this, Int.fract_add_intCast]

/-- **C28, strengthening.**  Every extreme point of the feasible region -- in particular every answer of the simplex
method -- has integral start times and buffer lengths, so the conversion to `int32_t` loses nothing. -/
theorem lp_vertex_integral {P : Prog} (hP : WF P) {lat : Nat → Int} {x : Nat → ℚ} (hx : Extreme (lpBuild P lat) x) :
    Integral (lpBuild P lat) x := by
  obtain ⟨hf, hex⟩ := hx
  obtain ⟨hr, hpt⟩ := hf.ratSchedule hP
  generalize hT : startTimes P (lpBuild P lat) x = T at hr hpt
  have hnode : ∀ n ∈ nodesOf P, Int.fract (T n) = 0 := by
    intro n hn
    by_contra hne
    -- shift all start times with this fractional part
    obtain ⟨ε, hε, hεl⟩ := exists_eps (Int.fract (T n) ::
      ((channels P).map (fun c => T c.tgt - T c.src - (weight lat c : ℚ)) ++
       (channels P).map (fun c => T c.tgt - T c.src - (0 : Int))))
    have hfr : ε ≤ Int.fract (T n) := hεl _ (by simp) (lt_of_le_of_ne (Int.fract_nonneg _) (Ne.symm hne))
    let S : Nat → ℚ := fun m => if Int.fract (T m) = Int.fract (T n) then 1 else 0
    have hS : ∀ δ : ℚ, |δ| ≤ ε → RatSchedule P lat (fun m => T m + δ * S m) := by
      intro δ hδ
      obtain ⟨hδ1, hδ2⟩ := abs_le.1 hδ
      have hdiff : ∀ z : Chan → Int, (∀ c ∈ channels P, (T c.tgt - T c.src - (z c : ℚ)) ∈ Int.fract (T n) ::
          ((channels P).map (fun c => T c.tgt - T c.src - (weight lat c : ℚ)) ++
          (channels P).map (fun c => T c.tgt - T c.src - (0 : Int)))) →
          (∀ c ∈ channels P, (z c : ℚ) ≤ T c.tgt - T c.src) →
          ∀ c ∈ channels P, (z c : ℚ) ≤ (T c.tgt + δ * S c.tgt) - (T c.src + δ * S c.src) := by
        intro z hz hle c hc
        have hzc := hz c hc
        have hlc := hle c hc
        by_cases he : Int.fract (T c.tgt) = Int.fract (T c.src)
        · have : S c.tgt = S c.src := by simp only [S, he]
          rw [this]; linarith
        · have hsl := hεl _ hzc (fract_ne_of_slack he hlc)
          have : |S c.tgt - S c.src| ≤ 1 := by
            simp only [S]; split <;> split <;> norm_num
          obtain ⟨g1, g2⟩ := abs_le.1 this
          have hb : -ε ≤ δ * (S c.tgt - S c.src) := by
            have : |δ * (S c.tgt - S c.src)| ≤ ε * 1 := by
              rw [abs_mul]; exact mul_le_mul hδ this (abs_nonneg _) hε.le
            have := (abs_le.1 this).1
            linarith
          have : (T c.tgt + δ * S c.tgt) - (T c.src + δ * S c.src) = T c.tgt - T c.src + δ * (S c.tgt - S c.src) := by ring
          rw [this]; linarith
      refine ⟨?_, ?_, ?_, ?_⟩
      · intro m hm
        have h0 := hr.nonneg m hm
        simp only [S]
        split
        · rename_i he
          have : Int.fract (T m) ≤ T m := by
            have h1 := Int.floor_nonneg.2 h0
            have h2 := Int.floor_add_fract (T m)
            have : (0 : ℚ) ≤ (⌊T m⌋ : ℚ) := by exact_mod_cast h1
            linarith
          rw [he] at this; linarith
        · linarith
      · intro m hm hin
        have h0 := hr.input m hm hin
        simp only [S]
        rw [if_neg (by rw [h0, Int.fract_zero]; exact fun h => hne h.symm), h0]; ring
      · exact hdiff (weight lat) (fun c hc => by
          refine List.mem_cons_of_mem _ (List.mem_append_left _ (List.mem_map.2 ⟨c, hc, rfl⟩))) hr.lat
      · intro c hc
        have := hdiff (fun _ => 0) (fun c hc => by
          refine List.mem_cons_of_mem _ (List.mem_append_right _ (List.mem_map.2 ⟨c, hc, rfl⟩)))
          (fun c hc => by simpa using hr.order c hc) c hc
        simpa using this
    have hp := (hS ε (by rw [abs_of_pos hε])).feasible hP
    have hm := (hS (-ε) (by rw [abs_neg, abs_of_pos hε])).feasible hP
    have hmid := hex _ _ hp hm (by
      intro v h1 h2
      rw [hpt v h1 h2]
      rcases column_cases P lat h1 h2 with ⟨m, hm, rfl⟩ | ⟨i, c, hc, rfl⟩ | ⟨i, c, hc, rfl⟩
      · rw [pointOf_node lat _ hm, pointOf_node lat _ hm, pointOf_node lat _ hm]; ring
      · rw [pointOf_delta lat _ hc, pointOf_delta lat _ hc, pointOf_delta lat _ hc]; ring
      · rw [pointOf_buf lat _ hc, pointOf_buf lat _ hc, pointOf_buf lat _ hc]; ring)
    obtain ⟨i, _, h2, h3⟩ := nodeMap_range lat hn
    have hcol := (lpBuild_shape P lat).2.1
    have := hmid ((lpBuild P lat).nodeMap n) (by omega) (by omega)
    rw [hpt _ (by omega) (by omega), pointOf_node lat _ hn, pointOf_node lat _ hn] at this
    simp only [S, if_true] at this
    linarith
  have hint : ∀ n ∈ nodesOf P, ∃ z : ℤ, T n = z := by
    intro n hn
    exact ⟨⌊T n⌋, by have h1 := Int.floor_add_fract (T n); rw [hnode n hn] at h1; linarith⟩
  intro v h1 h2
  rw [hpt v h1 h2]
  rcases column_cases P lat h1 h2 with ⟨n, hn, rfl⟩ | ⟨i, c, hc, rfl⟩ | ⟨i, c, hc, rfl⟩
  · rw [pointOf_node lat _ hn]; exact hint n hn
  · obtain ⟨g1, g2⟩ := chan_nodes hP (List.mem_of_getElem? hc)
    obtain ⟨a, ha⟩ := hint _ g1
    obtain ⟨b, hb⟩ := hint _ g2
    rw [pointOf_delta lat _ hc, ha, hb]; exact ⟨b - a, by push_cast; rfl⟩
  · obtain ⟨g1, g2⟩ := chan_nodes hP (List.mem_of_getElem? hc)
    obtain ⟨a, ha⟩ := hint _ g1
    obtain ⟨b, hb⟩ := hint _ g2
    rw [pointOf_buf lat _ hc, ha, hb]; exact ⟨b - a - weight lat c, by push_cast; rfl⟩

/-! #### Read-back outputs in an optimal answer -/

/-- In an optimal answer an output that is read inside the kernel, and not fed through a negative net offset, gets no
buffer on its own connection. -/
theorem lp_optimal_readOutputsTight {P : Prog} (hP : WF P) {lat : Nat → Int} (hlat : LatOk P lat) {x : Nat → ℚ}
    (hx : Optimal (lpBuild P lat) x) (hi : Integral (lpBuild P lat) x) (h : ReadOutputsNonneg P) :
    ReadOutputsTight P lat (intTimes P lat x) := by
  intro o ho y k hdep _
  obtain ⟨hf, hopt⟩ := hx
  obtain ⟨hr, hpt⟩ := hf.ratSchedule hP
  have hk := h o ho y k hdep
  obtain ⟨hout, n, hn, hon⟩ := ho
  have hosz : o < P.size := by have := hP.refs n hn o hon; omega
  obtain ⟨c0, hc0, hs0, ht0, ho0⟩ := dep_chan hP hosz hdep
  obtain ⟨hy, hoN⟩ := chan_nodes hP hc0
  rw [hs0] at hy; rw [ht0] at hoN
  obtain ⟨s, hos⟩ : ∃ s, P.defn o = .output (some s) := by
    obtain ⟨_, s, hs, _⟩ := hdep
    cases hd : P.defn o with
    | output src =>
      cases src with
      | none => rw [hd] at hs; simp [Def.refs] at hs
      | some u => exact ⟨u, rfl⟩
    | _ => rw [hd] at hout; simp [Def.isOutput] at hout
  -- the only channel into `o` is `c0`, and none leaves it
  have honly : ∀ c ∈ channels P, c.tgt = o → c = c0 := by
    intro c hc hct
    obtain ⟨_, h1⟩ := mem_channels.1 hc
    obtain ⟨_, h2⟩ := mem_channels.1 hc0
    rw [hct] at h1; rw [ht0] at h2
    simp only [inChans, hos, List.mem_singleton] at h1 h2
    rw [h1, h2]
  have hnone : ∀ c ∈ channels P, c.src ≠ o := by
    intro c hc hcs
    obtain ⟨_, _, s', _, hr'⟩ := chan_dep hP hc
    rw [hcs] at hr'
    exact hr'.target.2 s hos
  have hdep' := (lp_schedule hP hf hi).dep y o k hosz hdep
  by_contra hne
  have hlt : intTimes P lat x y + lat y + k < intTimes P lat x o := by omega
  generalize hT : startTimes P (lpBuild P lat) x = T at hr hpt
  have hTy : (intTimes P lat x y : ℚ) = T y := by rw [intTimes_cast hi hy, hT]
  have hTo : (intTimes P lat x o : ℚ) = T o := by rw [intTimes_cast hi hoN, hT]
  have hltQ : T y + ((lat y + k : Int) : ℚ) < T o := by
    rw [← hTy, ← hTo]
    have : ((intTimes P lat x y + lat y + k : Int) : ℚ) < (intTimes P lat x o : ℚ) := by exact_mod_cast hlt
    push_cast at this ⊢; linarith
  have hw0 : (0 : ℚ) ≤ ((lat y + k : Int) : ℚ) := by
    have := hlat.nonneg y
    exact_mod_cast (by omega : 0 ≤ lat y + k)
  have hw : weight lat c0 = lat y + k := by unfold weight; rw [hs0, ho0]
  let T' : Nat → ℚ := fun m => if m = o then T y + ((lat y + k : Int) : ℚ) else T m
  have hyo : y ≠ o := fun he => hnone c0 hc0 (by rw [hs0, he])
  have hT'c : ∀ c ∈ channels P, T' c.tgt - T' c.src ≤ T c.tgt - T c.src := by
    intro c hc
    simp only [T', if_neg (hnone c hc)]
    split
    · rename_i hct; rw [hct]; linarith
    · exact le_refl _
  have hR' : RatSchedule P lat T' := by
    refine ⟨?_, ?_, ?_, ?_⟩
    · intro m hm
      simp only [T']; split
      · have := hr.nonneg y hy; linarith
      · exact hr.nonneg m hm
    · intro m hm hin
      simp only [T']; split
      · rename_i hmo; subst hmo; rw [hos] at hin; simp [Def.isInput] at hin
      · exact hr.input m hm hin
    · intro c hc
      by_cases hct : c.tgt = o
      · rw [honly c hc hct]
        simp only [T', ht0, hs0, if_neg hyo, if_true, hw]; linarith
      · simp only [T', if_neg (hnone c hc), if_neg hct]; exact hr.lat c hc
    · intro c hc
      by_cases hct : c.tgt = o
      · rw [honly c hc hct]
        simp only [T', ht0, hs0, if_neg hyo, if_true]; linarith
      · simp only [T', if_neg (hnone c hc), if_neg hct]; exact hr.order c hc
  have hf' := hR'.feasible hP
  have h1 := hopt _ hf'
  rw [objective_eq hP hf, objective_eq hP hf'] at h1
  refine absurd h1 (not_le.2 ?_)
  refine List.sum_lt_sum _ _ ?_ ?_
  · intro c hc
    obtain ⟨g1, g2⟩ := chan_nodes hP hc
    rw [startTimes_pointOf lat _ g1, startTimes_pointOf lat _ g2, hT]; exact hT'c c hc
  · refine ⟨c0, hc0, ?_⟩
    obtain ⟨g1, g2⟩ := chan_nodes hP hc0
    rw [startTimes_pointOf lat _ g1, startTimes_pointOf lat _ g2, hT]
    simp only [T', ht0, hs0, if_neg hyo, if_true]; linarith

/-- **C28**, for what lp_solve's simplex answers: an optimal extreme point. -/
theorem lp_simplex_pipeline_correct {P : Prog} (hP : WF P) (hsm : Small P) {lat : Nat → Int} (hlat : LatOk P lat)
    {x : Nat → ℚ} (ho : Optimal (lpBuild P lat) x) (he : Extreme (lpBuild P lat) x) (hread : ReadOutputsNonneg P)
    (perm : List (Chan × Int) → List (Chan × Int)) (hperm : ∀ l, (perm l).Perm l) :
    ∃ r, lpRun P lat (.solved x) perm = .ok r ∧ NoOffsets r.prog ∧
      ∀ (α : Type) (I : Interp α) (σ : Nat → Int → α), HwRun r.prog I lat σ →
        ∀ v < P.size, (P.defn v).isNode → ∀ t, 0 ≤ t → ∀ a, Sem P I v t a →
          ∃ T : Int, (T : ℚ) = startTimes P (lpBuild P lat) x v ∧ σ v (T + lat v + t) = a :=
  lp_pipeline_correct hP hsm hlat ho.1 (lp_vertex_integral hP he)
    (lp_optimal_readOutputsTight hP hlat ho (lp_vertex_integral hP he) hread) perm hperm

/-! ### C31: the two schedulers agree -/

/-- Every output has a source. -/
def Connected (P : Prog) : Prop := ∀ i < P.size, P.defn i ≠ .output none

/-- From some element on every stream of a connected kernel is defined (earlier elements may read before the start of
an input). -/
theorem sem_eventually {α : Type} {P : Prog} (hP : WF P) (hcn : Connected P) (I : Interp α) :
    ∃ N : Int, 0 ≤ N ∧ ∀ v < P.size, ∀ t, N ≤ t → ∃ a, Sem P I v t a := by
  have hex : ∀ m, m ≤ P.size → ∃ N : Int, 0 ≤ N ∧ ∀ v < m, ∀ t, N ≤ t → ∃ a, Sem P I v t a := by
    intro m
    induction m with
    | zero => intro _; exact ⟨0, by omega, by intro v h; omega⟩
    | succ m ih =>
      intro hm
      obtain ⟨N, hN, hs⟩ := ih (by omega)
      have hrefs := hP.refs m (by omega)
      have key : ∃ K : Int, ∀ t, K ≤ t → N ≤ t → ∃ a, Sem P I m t a := by
        cases hd : P.defn m with
        | stream => exact ⟨0, fun t h _ => ⟨_, .stream hd h⟩⟩
        | scalar => exact ⟨0, fun t _ _ => ⟨_, .scalar hd⟩⟩
        | const => exact ⟨0, fun t _ _ => ⟨_, .const hd⟩⟩
        | output o =>
          cases o with
          | none => exact absurd hd (hcn m (by omega))
          | some s =>
            refine ⟨0, fun t _ h => ?_⟩
            obtain ⟨a, ha⟩ := hs s (hrefs s (by rw [hd]; simp [Def.refs])) t h
            exact ⟨a, .output hd ha⟩
        | offset s k =>
          refine ⟨N - k, fun t h _ => ?_⟩
          obtain ⟨a, ha⟩ := hs s (hrefs s (by rw [hd]; simp [Def.refs])) (t + k) (by omega)
          exact ⟨a, .offset hd ha⟩
        | node args =>
          refine ⟨0, fun t h0 h => ?_⟩
          have hall : ∀ s, ∃ a, s ∈ args → Sem P I s t a := by
            intro s
            by_cases hm : s ∈ args
            · obtain ⟨a, ha⟩ := hs s (hrefs s (by rw [hd]; exact hm)) t h
              exact ⟨a, fun _ => ha⟩
            · exact ⟨I.cst 0, fun h => absurd h hm⟩
          choose vals hv using hall
          exact ⟨_, Sem.strict vals hd h0 hv⟩
        | latency s n => exact absurd hd ((hP.fresh m (by omega)).1 s n)
        | erased => exact absurd hd (hP.fresh m (by omega)).2
      obtain ⟨K, hK⟩ := key
      refine ⟨max N K, le_trans hN (le_max_left _ _), ?_⟩
      intro v hv t ht
      have h1 := le_trans (le_max_left _ _) ht
      have h2 := le_trans (le_max_right _ _) ht
      by_cases hvm : v = m
      · subst hvm; exact hK t h2 h1
      · exact hs v (by omega) t h1
  exact hex P.size (le_refl _)

/-- **C31.**  The designs made by ASAP and by the linear scheduler show the same elements on every operation, hence on
every output, each relative to its own start time: from some element `N` of the streams on, for any start-up register
contents of either design. -/
theorem asap_and_lp_agree {P : Prog} (hP : WF P) (hsm : Small P) (hcn : Connected P) {lat : Nat → Int} (hlat : LatOk P lat)
    (hread : ReadOutputsNonneg P) {x : Nat → ℚ} (ho : Optimal (lpBuild P lat) x) (hi : Integral (lpBuild P lat) x)
    (perm : List (Chan × Int) → List (Chan × Int)) (hperm : ∀ l, (perm l).Perm l) :
    ∃ P1 r, applySchedule P (perm (buffersFor P lat (asap P lat).time)) = .ok P1 ∧
      lpRun P lat (.solved x) perm = .ok r ∧
      ∀ (α : Type) (I : Interp α), ∃ N : Int, ∀ σ1 σ2 : Nat → Int → α, HwRun P1 I lat σ1 → HwRun r.prog I lat σ2 →
        ∀ v < P.size, (P.defn v).isNode → ∀ t, N ≤ t → ∃ T : Int, (T : ℚ) = startTimes P (lpBuild P lat) x v ∧
          σ1 v ((asap P lat).time v + lat v + t) = σ2 v (T + lat v + t) := by
  obtain ⟨P1, h1, _, _, h4⟩ := asap_pipeline_correct hP hsm hlat hread _ (hperm (buffersFor P lat (asap P lat).time))
  obtain ⟨r, h5, _, h7⟩ := lp_pipeline_correct hP hsm hlat ho.1 hi (lp_optimal_readOutputsTight hP hlat ho hi hread) perm hperm
  refine ⟨P1, r, h1, h5, ?_⟩
  intro α I
  obtain ⟨N, hN, hs⟩ := sem_eventually hP hcn I
  refine ⟨N, ?_⟩
  intro σ1 σ2 hr1 hr2 v hv hnode t ht
  obtain ⟨a, ha⟩ := hs v hv t ht
  obtain ⟨T, hT, he⟩ := h7 α I σ2 hr2 v hv hnode t (by omega) a ha
  exact ⟨T, hT, by rw [he]; exact h4 α I σ1 hr1 v hv hnode t (by omega) a ha⟩

/-! ### C30, C52: what is false -/

/-- **C30 fails** (finding).  When the solver reports failure the pass still succeeds and reports latency 0; for the
moving sum with 2-cycle adders the resulting design is wrong at every fixed output delay `d`. -/
theorem lp_failure_is_accepted :
    (∀ P lat perm, (∀ l, (perm l).Perm l) → ∃ r, lpRun P lat .failed perm = .ok r ∧ r.latency = 0) ∧
    ∃ r, lpRun movingSum movingSumLat .failed id = .ok r ∧
      ∀ d : Int, 0 ≤ d → ∃ I : Interp Int, ∀ σ, HwRun r.prog I movingSumLat σ →
        ∃ t a, 0 ≤ t ∧ Sem movingSum I 5 t a ∧ σ 5 (d + t) ≠ a := by
  constructor
  · intro P lat perm hperm
    have : perm (lpBuffers P (lpBuild P lat) .failed) = [] := by
      have := hperm []
      exact List.perm_nil.1 this
    exact ⟨⟨eraseOffsets P.size P, 0⟩, by simp only [lpRun, this, applySchedule, insertBuffers], rfl⟩
  · refine ⟨_, rfl, ?_⟩
    intro d hd
    let x : Int → Int := fun t => if t = d + 1 then 1 else 0
    let I : Interp Int := ⟨fun _ l => l.sum, fun _ t => x t, fun _ => 0⟩
    refine ⟨I, ?_⟩
    intro σ hrun
    have h0 := hrun 0 (by decide)
    have h3 := hrun 3 (by decide)
    have h4 := hrun 4 (by decide)
    have h5 := hrun 5 (by decide)
    change ∀ c, 0 ≤ c → σ 0 c = x c at h0
    change ∀ c, (2 : Int) ≤ c → σ 3 c = ([σ 0 (c - 2), σ 0 (c - 2)] : List Int).sum at h3
    change ∀ c, (2 : Int) ≤ c → σ 4 c = ([σ 3 (c - 2), σ 0 (c - 2)] : List Int).sum at h4
    change ∀ c, (0 : Int) ≤ c → σ 5 c = σ 4 c at h5
    refine ⟨5, x 4 + x 5 + x 6, by omega, ?_, ?_⟩
    · have g0 : ∀ t, 0 ≤ t → Sem movingSum I 0 t (x t) := fun t ht => Sem.stream (I := I) (v := 0) rfl ht
      have g1 : Sem movingSum I 1 5 (x 4) := .offset (s := 0) (k := -1) rfl (g0 4 (by omega))
      have g2 : Sem movingSum I 2 5 (x 6) := .offset (s := 0) (k := 1) rfl (g0 6 (by omega))
      have g3 : Sem movingSum I 3 5 (x 4 + x 5) := by
        have := Sem.strict (P := movingSum) (I := I) (v := 3) (args := [1, 0]) (t := 5)
          (fun s => if s = 1 then x 4 else x 5) rfl (by omega)
          (by intro s hs; simp at hs; rcases hs with rfl | rfl
              · exact g1
              · exact g0 5 (by omega))
        simpa [I] using this
      have g4 : Sem movingSum I 4 5 (x 4 + x 5 + x 6) := by
        have := Sem.strict (P := movingSum) (I := I) (v := 4) (args := [3, 2]) (t := 5)
          (fun s => if s = 3 then x 4 + x 5 else x 6) rfl (by omega)
          (by intro s hs; simp at hs; rcases hs with rfl | rfl
              · exact g3
              · exact g2)
        simpa [I] using this
      exact .output (s := 4) rfl g4
    · rw [h5 _ (by omega), h4 _ (by omega), h3 _ (by omega), h0 _ (by omega), h0 _ (by omega)]
      simp only [List.sum_cons, List.sum_nil, x]
      split <;> split <;> split <;> split <;> split <;> omega

/-- **C52 fails** (finding).  The linear scheduler always reports overall latency 0, also where every schedule makes
the output wait: 4 cycles for the moving sum with 2-cycle adders. -/
theorem lp_reported_latency_wrong :
    (∀ P lat o perm r, lpRun P lat o perm = .ok r → r.latency = 0) ∧
    ∀ x, Feasible (lpBuild movingSum movingSumLat) x → 4 ≤ startTimes movingSum (lpBuild movingSum movingSumLat) x 5 := by
  constructor
  · intro P lat o perm r h
    unfold lpRun at h
    split at h
    · cases h
    · cases h; rfl
  · intro x hx
    have hr := (hx.ratSchedule movingSum_wf).1
    have h0 := hr.nonneg 0 (by decide)
    have h1 := hr.lat ⟨0, 3, 1, 0⟩ (by decide)
    have h2 := hr.lat ⟨3, 4, 0, 0⟩ (by decide)
    have h3 := hr.lat ⟨4, 5, -1, 0⟩ (by decide)
    have e1 : weight movingSumLat ⟨0, 3, 1, 0⟩ = 0 := by decide
    have e2 : weight movingSumLat ⟨3, 4, 0, 0⟩ = 2 := by decide
    have e3 : weight movingSumLat ⟨4, 5, -1, 0⟩ = 2 := by decide
    rw [e1] at h1; rw [e2] at h2; rw [e3] at h3
    push_cast at h1 h2 h3
    linarith

/-! ### Non-vacuity -/

/-- Start times 0, 0, 2, 4 of the moving sum. -/
def movingSumTimes : Nat → ℚ := fun v => if v = 4 then 2 else if v = 5 then 4 else 0

theorem movingSum_channels : channels movingSum =
    [⟨0, 3, 0, -1⟩, ⟨0, 3, 1, 0⟩, ⟨3, 4, 0, 0⟩, ⟨0, 4, 1, 1⟩, ⟨4, 5, -1, 0⟩] := by decide

theorem movingSum_nodes : nodesOf movingSum = [0, 3, 4, 5] := by decide

/-- The hypotheses of the LP theorems are met: the moving sum has an optimal extreme point, with start times
0, 0, 2, 4. -/
theorem movingSum_optimal_extreme :
    Optimal (lpBuild movingSum movingSumLat) (pointOf movingSum movingSumLat movingSumTimes) ∧
    Extreme (lpBuild movingSum movingSumLat) (pointOf movingSum movingSumLat movingSumTimes) := by
  have hR : RatSchedule movingSum movingSumLat movingSumTimes := by
    refine ⟨?_, ?_, ?_, ?_⟩
    · intro n _; unfold movingSumTimes; split
      · norm_num
      · split <;> norm_num
    · intro n hn hi
      rw [movingSum_nodes] at hn
      simp at hn
      rcases hn with rfl | rfl | rfl | rfl <;> simp [movingSum, Def.isInput, movingSumTimes] at hi ⊢
    · intro c hc
      rw [movingSum_channels] at hc
      simp at hc
      rcases hc with rfl | rfl | rfl | rfl | rfl <;> norm_num [weight, movingSumLat, movingSumTimes]
    · intro c hc
      rw [movingSum_channels] at hc
      simp at hc
      rcases hc with rfl | rfl | rfl | rfl | rfl <;> norm_num [movingSumTimes]
  have hf := hR.feasible movingSum_wf
  have hbd : ∀ y, Feasible (lpBuild movingSum movingSumLat) y →
      startTimes movingSum (lpBuild movingSum movingSumLat) y 0 = 0 ∧
      0 ≤ startTimes movingSum (lpBuild movingSum movingSumLat) y 3 ∧
      2 ≤ startTimes movingSum (lpBuild movingSum movingSumLat) y 4 ∧
      4 ≤ startTimes movingSum (lpBuild movingSum movingSumLat) y 5 := by
    intro y hy
    have hr := (hy.ratSchedule movingSum_wf).1
    have h0 := hr.input 0 (by decide) (by decide)
    have h1 := hr.nonneg 3 (by decide)
    have h2 := hr.lat ⟨3, 4, 0, 0⟩ (by decide)
    have h3 := hr.lat ⟨4, 5, -1, 0⟩ (by decide)
    have e2 : weight movingSumLat ⟨3, 4, 0, 0⟩ = 2 := by decide
    have e3 : weight movingSumLat ⟨4, 5, -1, 0⟩ = 2 := by decide
    rw [e2] at h2; rw [e3] at h3
    push_cast at h2 h3
    exact ⟨h0, h1, by linarith, by linarith⟩
  have hst : ∀ n ∈ nodesOf movingSum, startTimes movingSum (lpBuild movingSum movingSumLat)
      (pointOf movingSum movingSumLat movingSumTimes) n = movingSumTimes n :=
    fun n hn => startTimes_pointOf movingSumLat movingSumTimes hn
  refine ⟨⟨hf, ?_⟩, hf, ?_⟩
  · intro y hy
    obtain ⟨h0, h3, h4, h5⟩ := hbd y hy
    rw [objective_eq movingSum_wf hf, objective_eq movingSum_wf hy, movingSum_channels]
    simp only [List.map_cons, List.map_nil, List.sum_cons, List.sum_nil]
    rw [hst 0 (by decide), hst 3 (by decide), hst 4 (by decide), hst 5 (by decide)]
    norm_num [movingSumTimes]
    linarith
  · intro y z hy hz hmid
    obtain ⟨y0, y3, y4, y5⟩ := hbd y hy
    obtain ⟨z0, z3, z4, z5⟩ := hbd z hz
    have hn : ∀ n ∈ nodesOf movingSum, startTimes movingSum (lpBuild movingSum movingSumLat) y n = movingSumTimes n := by
      have hm : ∀ n ∈ nodesOf movingSum, movingSumTimes n =
          (startTimes movingSum (lpBuild movingSum movingSumLat) y n +
           startTimes movingSum (lpBuild movingSum movingSumLat) z n) / 2 := by
        intro n hn
        rw [startTimes_node _ _ hn, startTimes_node _ _ hn, ← pointOf_node movingSumLat movingSumTimes hn]
        obtain ⟨i, _, h2, h3⟩ := nodeMap_range movingSumLat hn
        have hcol := (lpBuild_shape movingSum movingSumLat).2.1
        exact hmid _ (by omega) (by omega)
      intro n hn
      have := hm n hn
      rw [movingSum_nodes] at hn
      simp at hn
      rcases hn with rfl | rfl | rfl | rfl <;> norm_num [movingSumTimes] at this ⊢ <;> linarith
    intro v h1 h2
    rw [(hy.ratSchedule movingSum_wf).2 v h1 h2]
    rcases column_cases movingSum movingSumLat h1 h2 with ⟨n, hn', rfl⟩ | ⟨i, c, hc, rfl⟩ | ⟨i, c, hc, rfl⟩
    · rw [pointOf_node _ _ hn', pointOf_node _ _ hn', hn n hn']
    · obtain ⟨g1, g2⟩ := chan_nodes movingSum_wf (List.mem_of_getElem? hc)
      rw [pointOf_delta _ _ hc, pointOf_delta _ _ hc, hn _ g1, hn _ g2]
    · obtain ⟨g1, g2⟩ := chan_nodes movingSum_wf (List.mem_of_getElem? hc)
      rw [pointOf_buf _ _ hc, pointOf_buf _ _ hc, hn _ g1, hn _ g2]

end Verif.Sched
