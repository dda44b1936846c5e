import Verif.Spec.KerrMetric
import Verif.Spec.Setup
/-
Fields the grid resolves: finite sums of spherical harmonics below the top ones whose coefficients are polynomials, of low enough
degree, in the compactified radius, and when an array of the solver holds one.
-/
namespace SFK
open Polynomial Scalar CR

/-- Coefficients `c_lm(R) = A_lm(R) + i B_lm(R)`: the pair of real polynomials of each `(l,m)`. -/
abbrev Modes := ℕ → ℕ → ℝ[X] × ℝ[X]

/-- their values at a compactified radius -/
noncomputable def Modes.at (F : Modes) (R : ℝ) (l m : ℕ) : ℂ := ⟨(F l m).1.eval R, (F l m).2.eval R⟩

/-- the function of the compactified radius and the angles -/
noncomputable def Modes.fn (F : Modes) (nl : ℕ) (R θ φ : ℝ) : ℝ := fieldR nl nl (F.at R) θ φ

/-- The harmonics on which the angular operators are not exact: the top degree `nl`, the degrees above the top order `nm` (of which the
grid keeps some orders only), and `l=m=nm`, which the ladder operators would move to an order the grid does not keep.  With `nm=nl` this is
the top degree alone. -/
def TopMode (nl nm l m : ℕ) : Prop := m ≤ l ∧ l ≤ nl ∧ (l = nl ∨ nm < l ∨ (l = nm ∧ m = nm))

/-- What the grid resolves exactly: radial degree at most 6 (finite differences) or below `nx-2` (Chebyshev), real `m=0` coefficients,
no top harmonics. -/
structure Modes.Resolved (F : Modes) (useCheb : Bool) (nx nl nm : ℕ) : Prop where
  deg : ∀ l m, if useCheb then (F l m).1.degree < (nx - 2 : ℕ) ∧ (F l m).2.degree < (nx - 2 : ℕ)
    else (F l m).1.natDegree ≤ 6 ∧ (F l m).2.natDegree ≤ 6
  real : ∀ l, (F l 0).2 = 0
  top : ∀ l m, TopMode nl nm l m → F l m = 0

/-- `ψ` and `∂_vψ` are, on the slice `v=v₀` and for positive radius, the resolved functions of the compactified radius `r/(1+r/L)`. -/
def Kerr.OnSlice (ψ : Kerr.Pt → ℝ) (v0 L : ℝ) (nl : ℕ) (F G : Modes) : Prop :=
  ∀ r θ φ, 0 < r → ψ ![v0, r, θ, φ] = F.fn nl (compR L r) θ φ ∧ Kerr.pd 0 ψ ![v0, r, θ, φ] = G.fn nl (compR L r) θ φ

/-- the array holds, at the grid points, the field whose coefficients at the compactified radius `R` are `c R` -/
def HoldsC (E : Env CR) (P : ParamRec CR) (q : Phys) (x : ℕ → ℝ) (g : Grid CR) (f : List CR) (c : ℝ → ℕ → ℕ → ℂ) : Prop :=
  f.length = P.nx * P.nlat * P.nphi ∧ ∀ ix it ip, ix < P.nx → it < P.nlat → ip < P.nphi →
    g.d.at3 f ix it ip = fin (fieldR P.nl P.nl (c (radPt E.useCheb P.nx q.lo q.up ix)) (Real.arccos (x it)) (phiN P.nphi ip))

/-- the array holds the values of `F` at the grid points -/
def Holds (E : Env CR) (P : ParamRec CR) (q : Phys) (x : ℕ → ℝ) (g : Grid CR) (f : List CR) (F : Modes) : Prop :=
  f.length = P.nx * P.nlat * P.nphi ∧ ∀ ix it ip, ix < P.nx → it < P.nlat → ip < P.nphi →
    g.d.at3 f ix it ip = fin (F.fn P.nl (radPt E.useCheb P.nx q.lo q.up ix) (Real.arccos (x it)) (phiN P.nphi ip))

end SFK
