import Mathlib.Analysis.SpecialFunctions.Trigonometric.Basic
/-
The inverse discrete cosine transform of an 8 by 8 block, as defined over the reals (ITU-T T.81 A.3.3, ISO 11172-2 annex A).
-/
namespace Verif.Flat
open Real

/-- The weight of frequency `u`. -/
noncomputable def dctWeight (u : ℕ) : ℝ := if u = 0 then 1 / √2 else 1

/-- The cosine of frequency `u` at place `x`. -/
noncomputable def dctCos (x u : ℕ) : ℝ := cos ((2 * x + 1) * u * π / 16)

/-- The sample in row `y` and column `x` of the block with coefficient `F v u` in row `v` and column `u`. -/
noncomputable def idctExact (F : ℕ → ℕ → ℝ) (y x : ℕ) : ℝ :=
  1 / 4 * ∑ v ∈ Finset.range 8, ∑ u ∈ Finset.range 8, dctWeight u * dctWeight v * F v u * dctCos x u * dctCos y v

/-- Clipping to -256 ... 255. -/
noncomputable def clipReal (r : ℝ) : ℝ := max (-256) (min 255 r)

end Verif.Flat
