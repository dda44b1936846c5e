import Verif.Spec.TimeOrder
/-
Vocabulary of C83: the sphere at infinity, fields given on it by their harmonic coefficients, and solutions of the discretised
equation over an interval of time.
-/
namespace SFK
open Scalar CR

/-- index of the radial point at the upper end of the radial interval (the first Chebyshev point, the last finite-difference point) -/
def upperIx (useCheb : Bool) (nx : ℕ) : ℕ := if useCheb then 0 else nx - 1

/-- On the sphere of radial index `ix`, the grid function `v` is the real field `∑ c_lm Y_lm`. -/
def OnShell (P : ParamRec CR) (g : Grid CR) (x : ℕ → ℝ) (ix : ℕ) (v : List CR) (c : ℕ → ℕ → ℂ) : Prop :=
  (∀ l, l ≤ P.nl → (c l 0).im = 0) ∧ ∀ it ip, it < P.nlat → ip < P.nphi →
    g.d.at3 v ix it ip = fin (fieldR P.nl P.nm c (Real.arccos (x it)) (phiN P.nphi ip))

/-- `u` solves the equation `set_k` defines at all times of `[0,T]`. -/
def SolvesOn (g : Grid CR) (P : ParamRec CR) {n : ℕ} (u : ℝ → State n) (T : ℝ) : Prop :=
  ∀ t ∈ Set.Icc 0 T, ∃ d, HasDerivAt u d t ∧ ∀ e, Eom.Of g P e → Slopes e g (arr (u t).1) (arr (u t).2) (arr d.1) (arr d.2)

/-- a free massless field: constant non-zero kinetic prefactor, no potential -/
structure Phys.Free (q : Phys) : Prop where
  km1 : q.km1 = 0
  k0 : q.k0 ≠ 0
  k1 : q.k1 = 0
  k2 : q.k2 = 0
  V2 : q.V2 = 0
  V3 : q.V3 = 0
  V4 : q.V4 = 0

/-- factor with which one application of the angular filter multiplies the `(l,m)` coefficient -/
noncomputable def filtD (nl nm l m : ℕ) : ℝ :=
  if l < nl ∧ m < nm then Real.exp (-40 * ((l : ℝ) / nl) ^ 16) * Real.exp (-40 * ((m : ℝ) / nl) ^ 16) else 1

end SFK
