import Verif.Model.Launcher
import Verif.Model.CR
import Verif.Spec.Kerr
import Mathlib.Algebra.Order.Floor.Semiring
import Mathlib.Data.Real.Archimedean
/-
Vocabulary of C81: settings with real values, and what a sensible setting is.
-/
namespace SFK
open Scalar CR

/-- python's `int` of a non-negative float -/
noncomputable def intCR : CR → ℕ
  | .fin y => ⌊y⌋₊
  | .bad => 0

/-- apply a function to all numbers of a setting -/
def Launcher.Settings.map {α β : Type} (f : α → β) (S : Launcher.Settings α) : Launcher.Settings β :=
  { mass := f S.mass, spin := f S.spin, cl := f S.cl, evolve_time := f S.evolve_time, cfl := f S.cfl, rl_0 := f S.rl_0, ru_0 := f S.ru_0
    num_saved_times := S.num_saved_times, nx := S.nx, nl := S.nl, nm := S.nm, nlat := S.nlat, nphi := S.nphi, use_cheb := S.use_cheb
    km1 := f S.km1, k0 := f S.k0, k1 := f S.k1, k2 := f S.k2, V2 := f S.V2, V3 := f S.V3, V4 := f S.V4, l_ang := S.l_ang, m_ang := S.m_ang
    amp := f S.amp, id := S.id, direction := S.direction }

/-- The horizon radius `M+sqrt(M²-a²)`. -/
noncomputable def horizonR (M a : ℝ) : ℝ := M + Real.sqrt (M ^ 2 - a ^ 2)

/-- A sensible setting: a black hole, a positive compactification length, a non-negative time, a positive Courant number where one is
used, at least two radial and one angular point. -/
structure Launcher.Settings.Sensible (S : Launcher.Settings ℝ) : Prop where
  mass : 0 < S.mass
  spin : |S.spin| ≤ S.mass
  noRound : Kerr.NoRound S.mass S.spin
  cl : 0 < S.cl
  time : 0 ≤ S.evolve_time
  cfl : S.use_cheb = false → 0 < S.cfl
  nx : 2 ≤ S.nx
  nlat : 1 ≤ S.nlat

/-- The time step asked for: `6/n²` for the largest number of points `n` in a spectral direction, and at most `cfl/(nx-1)` for finite
differences. -/
noncomputable def Launcher.Settings.step (S : Launcher.Settings ℝ) : ℝ :=
  if S.use_cheb then 6 / ((max S.nx (max S.nlat S.nphi) : ℕ) : ℝ) ^ 2
  else min (6 / ((max S.nlat S.nphi : ℕ) : ℝ) ^ 2) (S.cfl / (S.nx - 1))

end SFK
