import Verif.Spec.Symmetry
import Mathlib.Analysis.Calculus.Deriv.Prod
import Mathlib.Analysis.Calculus.Deriv.Pi
/-
Vocabulary of C80: the ordinary differential equation in time that the space discretisation defines.
-/
namespace SFK
open Scalar CR Filter Topology

/-- A finite state: the values of both fields at the `n` grid points (supremum norm). -/
abbrev State (n : ℕ) := (Fin n → ℝ) × (Fin n → ℝ)

/-- the array of these values -/
noncomputable def arr {n : ℕ} (y : Fin n → ℝ) : List CR := List.ofFn fun i => fin (y i)

/-- `u` solves, for times near zero, the equation whose right-hand side is what `set_k` computes: at each such time `u` has a derivative
and `set_k` returns exactly that derivative for the arrays holding `u(t)`. -/
def SolvesNear (g : Grid CR) (P : ParamRec CR) {n : ℕ} (u : ℝ → State n) : Prop :=
  ∀ᶠ t in 𝓝 (0 : ℝ), ∃ d, HasDerivAt u d t ∧ ∀ e, Eom.Of g P e → Slopes e g (arr (u t).1) (arr (u t).2) (arr d.1) (arr d.2)

end SFK
