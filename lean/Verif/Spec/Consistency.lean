import Verif.Spec.Resolved
import Mathlib.Analysis.Calculus.ContDiff.Defs
/-
Smooth fields: finite sums of spherical harmonics below the top ones whose coefficients are smooth functions of the compactified
radius.
-/
namespace SFK

/-- Coefficients `c_lm(R) = A_lm(R) + i B_lm(R)`: the pair of real functions of each `(l,m)`. -/
abbrev SModes := ℕ → ℕ → (ℝ → ℝ) × (ℝ → ℝ)

/-- their values at a compactified radius -/
def SModes.at (F : SModes) (R : ℝ) (l m : ℕ) : ℂ := ⟨(F l m).1 R, (F l m).2 R⟩

/-- the function of the compactified radius and the angles -/
noncomputable def SModes.fn (F : SModes) (nl : ℕ) (R θ φ : ℝ) : ℝ := fieldR nl nl (F.at R) θ φ

/-- `n` times continuously differentiable coefficients, real `m=0` coefficients, no top harmonics -/
structure SModes.Smooth (F : SModes) (n : ℕ) (nl nm : ℕ) : Prop where
  diff : ∀ l m, ContDiff ℝ n (F l m).1 ∧ ContDiff ℝ n (F l m).2
  real : ∀ l R, (F l 0).2 R = 0
  top : ∀ l m, TopMode nl nm l m → ∀ R, (F l m).1 R = 0 ∧ (F l m).2 R = 0

/-- `ψ` and `∂_vψ` are, on the slice `v=v₀` and for radius above `r₀`, the given functions of the compactified radius. -/
def Kerr.OnSliceFrom (ψ : Kerr.Pt → ℝ) (v0 r0 L : ℝ) (nl : ℕ) (F G : SModes) : Prop :=
  ∀ r θ φ, r0 < r → ψ ![v0, r, θ, φ] = F.fn nl (compR L r) θ φ ∧ Kerr.pd 0 ψ ![v0, r, θ, φ] = G.fn nl (compR L r) θ φ

end SFK
