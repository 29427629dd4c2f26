import Verif.Sched.LpProps
/-
C28, continued: where a feasible point puts the inputs.
-/
namespace Verif.Sched

/-- **C28 (inputs).**  In every feasible point of the problem the inputs of the kernel, streams and scalars alike, start at time 0. -/
theorem lp_inputs_start {P : Prog} {lat : Nat → Int} {x : Nat → ℚ} (hx : Feasible (lpBuild P lat) x) {n : Nat} (hn : n ∈ nodesOf P)
    (h : P.defn n = .stream ∨ P.defn n = .scalar) : x ((lpBuild P lat).nodeMap n) = 0 :=
  (((lpBuild_shape P lat).2.2.2.2 x).mp hx.1).1 n hn (by rcases h with h | h <;> rw [h] <;> rfl)

/-- The moving sum has a feasible point and a stream input. -/
example : ∃ x, Feasible (lpBuild movingSum (fun _ => 1)) x ∧ x ((lpBuild movingSum (fun _ => 1)).nodeMap 0) = 0 := by
  obtain ⟨⟨x, hx, -⟩, -⟩ := lp_satisfiable (P := movingSum) movingSum_wf (fun _ => 1)
  exact ⟨x, hx, lp_inputs_start hx (by rw [movingSum_nodes]; decide) (.inl rfl)⟩

end Verif.Sched
