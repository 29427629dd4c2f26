import Verif.Flat.Small
import Verif.Flat.IdctAcc
/-
Concrete cases for the theorems about the example kernels.
-/
namespace Verif.Flat
open Verif.Dfcxx Verif.Flow Verif.Kernels

/-- Input streams that fit the ports exist: a ramp modulo 2^16 at every port. -/
example : Fits rowIns (fun _ t => t % 2 ^ 16) := by
  intro i hi t
  obtain ⟨j, -, rfl⟩ := List.mem_map.mp hi
  exact Nat.mod_lt _ (by decide)

example : Fits [("x", 32), ("ctrl", 1)] (fun name t => if name = "ctrl" then t % 2 else 7 * t % 2 ^ 32) := by
  intro i hi t
  simp only [List.mem_cons, List.not_mem_nil, or_false] at hi
  rcases hi with rfl | rfl
  · exact Nat.mod_lt _ (by decide)
  · exact Nat.mod_lt _ (by decide)

/-- Configuration files as required exist. -/
example : StagesGiven (some ⟨[], some [("ADD_INT", 1), ("SUB_INT", 1), ("MUL_INT", 2)]⟩) := by
  unfold StagesGiven
  decide

/-- A constant row: only the first coefficient, 100; all eight values are 800, that is 8 times as much. -/
example : (List.range 8).map (fun k => (idctRow (fun i => if i = 0 then 100 else 0) k).toInt) = [800, 800, 800, 800, 800, 800, 800, 800] := by
  decide

/-- The first cosine: the values fall from cos(π/16) to -cos(π/16). -/
example : (List.range 8).map (fun k => (idctRow (fun i => if i = 1 then 100 else 0) k).toInt) = [1110, 941, 629, 221, -221, -629, -941, -1110] := by
  decide

example : Fits [("x", 768)] (fun _ t => 5 ^ t % 2 ^ 768) := by
  intro i hi t
  rw [List.mem_singleton] at hi
  subst hi
  exact Nat.mod_lt _ (Nat.two_pow_pos 768)

/-- A constant block: only the first coefficient, 100; all samples are 13 (100 / 8, rounded). -/
example : (List.range 64).all (fun k => (idct2D 13 (fun i => if i = 0 then 100 else 0) k).toInt == 13) = true := by
  decide +kernel

/-- The first sample of a block with coefficients 100, 80, -60 in the first row and 40 below the first. -/
example : (idct2D 13 (fun i => if i = 0 then 100 else if i = 1 then 80 else if i = 2 then -60 else if i = 8 then 40 else 0) 0).toInt = 24 := by
  decide +kernel

/-- Blocks within the bound exist: this one has the sums 340, 369, 0, ..., and the sample the theorem speaks of is not clipped. -/
def sampleBlock : Nat → BitVec 32 := fun i =>
  if i = 0 then 200 else if i = 1 then 80 else if i = 2 then -60 else if i = 8 then -300 else if i = 15 then 69 else 0

example : ∀ v < 8, ∑ u ∈ Finset.range 8, |(sampleBlock (8 * v + u)).toInt| ≤ 369 := by
  decide

example : |((idct2D 13 sampleBlock 19).toInt : ℝ) -
    clipReal (idctExact (fun v u => ((sampleBlock (8 * v + u)).toInt : ℝ)) (19 / 8) (19 % 8))| < 1 :=
  idct2D_accurate_partial (by decide) (by decide)

example : ((List.range 8).map fun k => (idct2D 13 sampleBlock k).toInt) = [-20, -29, -1, -31, -3, -45, -33, -54] := by
  decide +kernel

/-- The word that holds 512 at place 0: all samples are -64 instead of 64. -/
example : ((List.range 64).all fun k => (idct2D 13 (fun i => if i = 0 then 512 else 0) k).toInt == -64) = true := by
  decide +kernel

end Verif.Flat
