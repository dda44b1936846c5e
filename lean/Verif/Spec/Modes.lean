import Verif.Spec.Symmetry
/-
Vocabulary of C105 and C106: grid functions made of a single azimuthal harmonic, of a single spherical harmonic.
-/
namespace SFK
open Scalar CR

/-- On every circle of latitude, at every radius, `v` is a multiple of `cos(mφ)` plus a multiple of `sin(mφ)`. -/
def OneOrder (d : Dims) (m : ℕ) (v : List CR) : Prop :=
  ∀ ix it, ix < d.nx → it < d.nlat → ∃ a b : ℝ, ∀ ip, ip < d.nphi →
    d.at3 v ix it ip = fin (a * Real.cos (m * phiN d.nphi ip) + b * Real.sin (m * phiN d.nphi ip))

/-- A real harmonic of degree `l` and order `m`: `Θ_lm(θ)(α cos(mφ)+β sin(mφ))`. -/
noncomputable def shapeY (l m : ℕ) (α β θ φ : ℝ) : ℝ := ThN l m θ * (α * Real.cos (m * φ) + β * Real.sin (m * φ))

/-- On every shell `v` is the harmonic `shapeY l m α β` times a number `y ix` that depends on the shell. -/
def OneHarmonic (d : Dims) (x : ℕ → ℝ) (l m : ℕ) (α β : ℝ) (y : ℕ → ℝ) (v : List CR) : Prop :=
  ∀ ix it ip, ix < d.nx → it < d.nlat → ip < d.nphi →
    d.at3 v ix it ip = fin (y ix * shapeY l m α β (Real.arccos (x it)) (phiN d.nphi ip))

end SFK
