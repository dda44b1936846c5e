import Verif.Spec.Kerr
import Verif.Spec.Harmonics
import Mathlib.LinearAlgebra.Matrix.NonsingularInverse
import Mathlib.LinearAlgebra.Matrix.Notation
/-
Covariant formulation, independent of the documented operator formulas: the Kerr metric, its inverse, the Laplace-Beltrami operator
of a metric, the stress-energy tensor and the density seen by the normal observers.
-/
namespace SFK.Kerr

/-- Spacetime points: ingoing coordinates `(v,r,θ,φ)`. -/
abbrev Pt := Fin 4 → ℝ

/-- Kerr in ingoing Eddington-Finkelstein (Kerr-Schild time) coordinates; main.tex:143-160 with the factor `sin²θ` of `dφ²` that is
missing there. -/
noncomputable def metric (M a : ℝ) (x : Pt) : Matrix (Fin 4) (Fin 4) ℝ :=
  let r := x 1
  let S := Sig a (x 1) (x 2)
  let s2 := Real.sin (x 2) ^ 2
  !![-(1 - 2 * M * r / S), 2 * M * r / S, 0, -(2 * M * r / S * (a * s2));
     2 * M * r / S, 1 + 2 * M * r / S, 0, -((1 + 2 * M * r / S) * (a * s2));
     0, 0, S, 0;
     -(2 * M * r / S * (a * s2)), -((1 + 2 * M * r / S) * (a * s2)), 0, (r ^ 2 + a ^ 2 + 2 * M * a ^ 2 * r * s2 / S) * s2]

/-- The line element as printed in main.tex:143-160. -/
noncomputable def metricPrinted (M a : ℝ) (x : Pt) : Matrix (Fin 4) (Fin 4) ℝ :=
  let r := x 1
  let S := Sig a (x 1) (x 2)
  let s2 := Real.sin (x 2) ^ 2
  !![-(1 - 2 * M * r / S), 2 * M * r / S, 0, -(2 * M * r / S * (a * s2));
     2 * M * r / S, 1 + 2 * M * r / S, 0, -((1 + 2 * M * r / S) * (a * s2));
     0, 0, S, 0;
     -(2 * M * r / S * (a * s2)), -((1 + 2 * M * r / S) * (a * s2)), 0, a ^ 2 + r ^ 2 + 2 * M * a ^ 2 * r * s2 / S]

/-- Length of a tangent vector `(dv,dr,dθ,dφ)`. -/
noncomputable def line2 (g : Matrix (Fin 4) (Fin 4) ℝ) (u : Fin 4 → ℝ) : ℝ := ∑ μ, ∑ ν, g μ ν * u μ * u ν

/-- Textbook Kerr line element in Boyer-Lindquist coordinates `(t,r,θ,φ)`. -/
noncomputable def boyerLindquist (M a r θ : ℝ) (dt dr dθ dφ : ℝ) : ℝ :=
  -(1 - 2 * M * r / Sig a r θ) * dt ^ 2 - 4 * M * a * r * Real.sin θ ^ 2 / Sig a r θ * dt * dφ + Sig a r θ / Del M a r * dr ^ 2
    + Sig a r θ * dθ ^ 2 + (r ^ 2 + a ^ 2 + 2 * M * a ^ 2 * r * Real.sin θ ^ 2 / Sig a r θ) * Real.sin θ ^ 2 * dφ ^ 2

/-- `∂f/∂x^μ` -/
noncomputable def pd (μ : Fin 4) (f : Pt → ℝ) (x : Pt) : ℝ := deriv (fun t => f (Function.update x μ t)) (x μ)

/-- `sqrt|det g|` -/
noncomputable def vol (g : Pt → Matrix (Fin 4) (Fin 4) ℝ) (x : Pt) : ℝ := Real.sqrt |(g x).det|

/-- The wave operator of a metric: `□ψ = |g|^{-1/2} ∂_μ(|g|^{1/2} g^{μν} ∂_ν ψ)`. -/
noncomputable def boxG (g : Pt → Matrix (Fin 4) (Fin 4) ℝ) (ψ : Pt → ℝ) (x : Pt) : ℝ :=
  (vol g x)⁻¹ * ∑ μ, pd μ (fun y => vol g y * ∑ ν, (g y)⁻¹ μ ν * pd ν ψ y) x

/-- `g^{μν} ∂_μψ ∂_νψ` -/
noncomputable def gradG (g : Pt → Matrix (Fin 4) (Fin 4) ℝ) (ψ : Pt → ℝ) (x : Pt) : ℝ :=
  ∑ μ, ∑ ν, (g x)⁻¹ μ ν * pd μ ψ x * pd ν ψ x

/-- The stress-energy tensor, main.tex:246-261. -/
noncomputable def stress (k V : ℝ → ℝ) (g : Pt → Matrix (Fin 4) (Fin 4) ℝ) (ψ : Pt → ℝ) (x : Pt) (μ ν : Fin 4) : ℝ :=
  k (ψ x) * pd μ ψ x * pd ν ψ x - g x μ ν * (1 / 2 * k (ψ x) * gradG g ψ x + V (ψ x))

/-- The unit normal of the slices `v = const`, upper index: `n_μ dx^μ = -|g^{vv}|^{-1/2} dv` (main.tex:287; the overall sign of `n` does
not matter for the density). -/
noncomputable def normal (g : Pt → Matrix (Fin 4) (Fin 4) ℝ) (x : Pt) (μ : Fin 4) : ℝ :=
  (g x)⁻¹ μ 0 * -(Real.sqrt |(g x)⁻¹ 0 0|)⁻¹

/-- The energy density `ρ = n^μ n^ν T_{μν}`, main.tex:281-286. -/
noncomputable def density (k V : ℝ → ℝ) (g : Pt → Matrix (Fin 4) (Fin 4) ℝ) (ψ : Pt → ℝ) (x : Pt) : ℝ :=
  ∑ μ, ∑ ν, normal g x μ * normal g x ν * stress k V g ψ x μ ν

/-- The derivatives of `ψ` at a point that enter the documented formulas. -/
noncomputable def jetOf (ψ : Pt → ℝ) (x : Pt) : Jet where
  psi := ψ x
  v := pd 0 ψ x
  r := pd 1 ψ x
  vv := pd 0 (pd 0 ψ) x
  vr := pd 1 (pd 0 ψ) x
  rr := pd 1 (pd 1 ψ) x
  phi := pd 3 ψ x
  rphi := pd 1 (pd 3 ψ) x
  lap := lapS2 (fun θ φ => ψ ![x 0, x 1, θ, φ]) (x 2) (x 3)
  ang := gradSq (fun θ φ => ψ ![x 0, x 1, θ, φ]) (x 2) (x 3)

end SFK.Kerr
