import Mathlib.Algebra.Polynomial.Derivative
import Mathlib.Analysis.SpecialFunctions.Trigonometric.Basic
import Mathlib.Analysis.SpecialFunctions.Sqrt
import Mathlib.Data.Nat.Factorial.Basic
import Mathlib.Analysis.Calculus.Deriv.Basic
/-
Spherical harmonics, orthonormal with the Condon-Shortley phase (the default normalisation of SHTns,
`sht_orthonormal`), independent of the modelled code.
-/
namespace SFK
open Polynomial

/-- Legendre polynomial (Rodrigues): `P_l = (1/(2^l l!)) d^l/dx^l (x^2-1)^l`. -/
noncomputable def legP (l : ℕ) : ℝ[X] := C (1 / (2 ^ l * (l.factorial : ℝ))) * derivative^[l] ((X ^ 2 - 1) ^ l)

/-- Normalisation `sqrt((2l+1)/(4π) (l-m)!/(l+m)!)`. -/
noncomputable def nrmY (l m : ℕ) : ℝ :=
  Real.sqrt ((2 * l + 1) / (4 * Real.pi) * (((l - m).factorial : ℝ) / ((l + m).factorial : ℝ)))

/-- The polar part for `m≥0`: `(-1)^m N_lm sin^m(θ) P_l^{(m)}(cos θ)`. -/
noncomputable def ThN (l m : ℕ) (θ : ℝ) : ℝ :=
  (-1) ^ m * nrmY l m * Real.sin θ ^ m * (derivative^[m] (legP l)).eval (Real.cos θ)

/-- The polar part for every order: `Θ_{l,-m} = (-1)^m Θ_{lm}`. -/
noncomputable def ThZ (l : ℕ) (m : ℤ) (θ : ℝ) : ℝ :=
  if 0 ≤ m then ThN l m.toNat θ else (-1) ^ (-m).toNat * ThN l (-m).toNat θ

/-- The spherical harmonic `Y_lm(θ,φ) = Θ_lm(θ) e^{imφ}`. -/
noncomputable def Ylm (l : ℕ) (m : ℤ) (θ φ : ℝ) : ℂ := (ThZ l m θ : ℂ) * Complex.exp (Complex.I * m * φ)

/-- The complex field with the coefficients `c l m`, `-l≤m≤l≤L`. -/
noncomputable def fieldC (L : ℕ) (c : ℕ → ℤ → ℂ) (θ φ : ℝ) : ℂ :=
  ∑ l ∈ Finset.range (L + 1), ∑ m ∈ Finset.Icc (-(l : ℤ)) l, c l m * Ylm l m θ φ

/-- The real field with the coefficients `c l m`, `0≤m≤min(l,M)`, `l≤L`:
`Σ_l [ c_l0 Y_l0 + 2 Re Σ_{m≥1} c_lm Y_lm ]`. -/
noncomputable def fieldR (L M : ℕ) (c : ℕ → ℕ → ℂ) (θ φ : ℝ) : ℝ :=
  ∑ l ∈ Finset.range (L + 1), ((c l 0).re * ThN l 0 θ
    + 2 * (∑ m ∈ Finset.Icc 1 (min l M), c l m * Ylm l m θ φ).re)

/-- `∂f/∂θ` -/
noncomputable def dTh (f : ℝ → ℝ → ℝ) (θ φ : ℝ) : ℝ := deriv (fun t => f t φ) θ

/-- `∂f/∂φ` -/
noncomputable def dPh (f : ℝ → ℝ → ℝ) (θ φ : ℝ) : ℝ := deriv (fun t => f θ t) φ

/-- The Laplacian of the unit sphere. -/
noncomputable def lapS2 (f : ℝ → ℝ → ℝ) (θ φ : ℝ) : ℝ :=
  deriv (fun t => Real.sin t * dTh f t φ) θ / Real.sin θ + dPh (dPh f) θ φ / Real.sin θ ^ 2

/-- The squared angular gradient. -/
noncomputable def gradSq (f : ℝ → ℝ → ℝ) (θ φ : ℝ) : ℝ := dTh f θ φ ^ 2 + dPh f θ φ ^ 2 / Real.sin θ ^ 2

end SFK
