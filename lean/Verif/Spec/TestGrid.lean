import Verif.Spec.Harmonics
import Mathlib.Analysis.SpecialFunctions.ExpDeriv
/-
The function that Test/test_grid.cpp differentiates, as a real function.
-/
namespace SFK

/-- `exp(-w/(r-rl)) exp(-2w/(ru-r))`, `w=ru-rl`, between `rl` and `ru`, and zero outside. -/
noncomputable def bumpT (rl ru r : ℝ) : ℝ :=
  open Classical in if rl < r ∧ r < ru then Real.exp (-(ru - rl) / (r - rl)) * Real.exp (-2 * (ru - rl) / (ru - r)) else 0

/-- the radial profile of the test function -/
noncomputable def radT (rl ru r : ℝ) : ℝ := ((r - rl) / (ru - rl)) ^ 4 * ((ru - r) / (ru - rl)) ^ 4 * (10 * bumpT rl ru r)

/-- the angular profile of the test function -/
noncomputable def angT (θ φ : ℝ) : ℝ := 1 + Real.sin θ ^ 2 / (1 + Real.cos φ ^ 2)

/-- the test function -/
noncomputable def testT (rl ru r θ φ : ℝ) : ℝ := radT rl ru r * angT θ φ

end SFK
