import Mathlib.Analysis.SpecialFunctions.Sqrt
import Mathlib.Analysis.SpecialFunctions.Trigonometric.Basic
import Mathlib.Analysis.Calculus.Deriv.Basic
/-
The documented physics (Documentation/main.tex), independent of the modelled code: Kerr in ingoing
Eddington-Finkelstein coordinates, the wave operator, the equation of motion and the energy density.
-/
namespace SFK.Kerr

/-- main.tex:161 `Σ` -/
noncomputable def Sig (a r θ : ℝ) : ℝ := r ^ 2 + a ^ 2 * Real.cos θ ^ 2
/-- main.tex:165 `Δ` -/
def Del (M a r : ℝ) : ℝ := r ^ 2 - 2 * M * r + a ^ 2
/-- `r_+ = M + sqrt(M²-a²)` (main.tex:236) -/
noncomputable def rPlus (M a : ℝ) : ℝ := M + Real.sqrt (M ^ 2 - a ^ 2)

/-- Values at a point of the derivatives of a scalar field. `lap` is the Laplacian of the unit sphere, `ang` the
squared angular gradient `ψ_θ² + ψ_φ²/sin²θ`. -/
structure Jet where
  psi : ℝ
  v : ℝ
  r : ℝ
  vv : ℝ
  vr : ℝ
  rr : ℝ
  phi : ℝ
  rphi : ℝ
  lap : ℝ
  ang : ℝ

/-- main.tex:179-197 `□ψ` -/
noncomputable def box (M a r θ : ℝ) (j : Jet) : ℝ :=
  -(1 + 2 * M * r / Sig a r θ) * j.vv + 4 * M * r / Sig a r θ * j.vr + Del M a r / Sig a r θ * j.rr
    + 2 * a / Sig a r θ * j.rphi + 1 / Sig a r θ * j.lap + 2 * M / Sig a r θ * j.v
    + 2 * (r - M) / Sig a r θ * j.r

/-- main.tex:198-217 `(∇ψ)²` -/
noncomputable def grad2 (M a r θ : ℝ) (j : Jet) : ℝ :=
  -(1 + 2 * M * r / Sig a r θ) * j.v ^ 2 + 4 * M * r / Sig a r θ * j.v * j.r + Del M a r / Sig a r θ * j.r ^ 2
    + 2 * a / Sig a r θ * j.r * j.phi + 1 / Sig a r θ * j.ang

/-- The large-`r` limits of the same operators (all coefficients but the flat ones vanish). -/
def boxInf (j : Jet) : ℝ := -j.vv + j.rr
def grad2Inf (j : Jet) : ℝ := -j.v ^ 2 + j.r ^ 2

/-- potential `V(ψ)` documented in runscript_template.py:45, and kinetic prefactor `k(ψ)` in the form the solver evolves (the
one documented in runscript_template.py:38 is `kinDoc`; see C70). -/
noncomputable def kin (km1 k0 k1 k2 ψ : ℝ) : ℝ := km1 / (1 + ψ) + k0 + k1 * ψ + k2 / 2 * ψ ^ 2
noncomputable def pot (v2 v3 v4 ψ : ℝ) : ℝ := v2 / 2 * ψ ^ 2 + v3 / 6 * ψ ^ 3 + v4 / 24 * ψ ^ 4

/-- The kinetic prefactor documented in runscript_template.py:38. -/
noncomputable def kinDoc (km1 k0 k1 k2 ψ : ℝ) : ℝ := km1 / ψ + k0 + k1 * ψ + k2 * ψ ^ 2

/-- left-hand side of the equation of motion, main.tex:106-117, with `B = □ψ`, `G = (∇ψ)²` -/
noncomputable def eomLhs (k V : ℝ → ℝ) (ψ B G : ℝ) : ℝ := B + 1 / 2 * (deriv k ψ / k ψ) * G - deriv V ψ / k ψ

/-- the bracket of the documented energy density, main.tex:305-333 -/
noncomputable def rhoBracket (M a r θ : ℝ) (j : Jet) : ℝ :=
  (1 + 2 * M * r / Sig a r θ) * j.v ^ 2 + 4 * M * r / Sig a r θ * j.v * j.r
    + ((r ^ 2 + 2 * M * r + a ^ 2) / Sig a r θ - 4 * M * r / (2 * M * r + Sig a r θ)) * j.r ^ 2
    + 2 * a / Sig a r θ * j.r * j.phi + 1 / Sig a r θ * j.ang

/-- main.tex:291-336, the documented energy density -/
noncomputable def rho (k V : ℝ → ℝ) (M a r θ : ℝ) (j : Jet) : ℝ := k j.psi * (1 / 2) * rhoBracket M a r θ j + V j.psi

/-- The documented radial characteristic speeds `c_±` (main.tex:218-233). -/
noncomputable def speed (sgn M a r θ : ℝ) : ℝ :=
  (1 + 2 * M * r / Sig a r θ)⁻¹ * (-(2 * M * r / Sig a r θ) + sgn * Real.sqrt (4 * M ^ 2 * r ^ 2 / Sig a r θ ^ 2
    + (1 + 2 * M * r / Sig a r θ) * (Del M a r / Sig a r θ)))

/-- The parameters avoid the rounding thresholds of the code: extremal exactly or by at least `1e-16`, and no spin at all or
a spin of at least `1e-16`. -/
def NoRound (M a : ℝ) : Prop := (M = |a| ∨ 1 / 10 ^ 16 ≤ abs (M - |a|)) ∧ (a = 0 ∨ 1 / 10 ^ 16 ≤ |a|)

end SFK.Kerr
