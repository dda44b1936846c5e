import Verif.Spec.Sphere
import Verif.Spec.Harmonics
import Verif.Lemmas.Base
/-
The mathematical contract of the SHTns transforms (what the library documentation promises): synthesis evaluates the
spherical-harmonic series at the grid points, analysis is a quadrature rule that is exact on the resolved harmonics.
Nothing here is about the modelled code; `SphereExists` (Lemmas/SphereInstance.lean) shows the contract can be met for
all sizes with `mmax≤lmax<nlat`, `2*mmax<nphi`.
-/
namespace SFK
open Scalar CR

/-- Position of the angular point `(it,ip)` in a spatial array: sphere.hpp:102-109 (theta or phi contiguous), as
exact numbers. -/
def spos (contig : Bool) (nlat nphi it ip : ℕ) : ℕ := if contig then nlat * ip + it else nphi * it + ip

/-- azimuthal node -/
noncomputable def phiN (nphi ip : ℕ) : ℝ := 2 * Real.pi * ip / nphi

/-- quadrature weights for every order -/
noncomputable def wtZ (A : ℕ → ℕ → ℕ → ℝ) (l : ℕ) (m : ℤ) (it : ℕ) : ℝ :=
  if 0 ≤ m then A l m.toNat it else (-1) ^ (-m).toNat * A l (-m).toNat it

/-- the coefficients of the orders `|m|≤M` -/
noncomputable def cutC (M : ℕ) (c : ℕ → ℤ → ℂ) (l : ℕ) (m : ℤ) : ℂ := if |m| ≤ (M : ℤ) then c l m else 0

/-- The contract.  `x it` is the cosine of the `it`-th polar node, `A l m it` the quadrature weight with which the
`m`-th Fourier coefficient at node `it` enters the `(l,m)` coefficient. -/
structure Shtns.Math (s : Shtns CR) (contig : Bool) (nlat nphi : ℕ) (x : ℕ → ℝ) (A : ℕ → ℕ → ℕ → ℝ) : Prop where
  ct : ∀ it, it < nlat → gv s.ct it = fin (x it)
  inside : ∀ it, it < nlat → -1 < x it ∧ x it < 1
  nphi_gt : 2 * s.mmax < nphi
  quad : ∀ m l l', m ≤ s.mmax → m ≤ l → l ≤ s.lmax → m ≤ l' → l' ≤ s.lmax →
    ∑ it ∈ Finset.range nlat, A l m it * ThN l' m (Real.arccos (x it)) = if l = l' then 1 / (nphi : ℝ) else 0
  syn : ∀ q c, s.IsCoefs q c → ∀ it ip, it < nlat → ip < nphi →
    gv (s.shToSpat q) (spos contig nlat nphi it ip)
      = fin (fieldR s.lmax s.mmax c (Real.arccos (x it)) (phiN nphi ip))
  synC : ∀ q c, s.IsCoefsC q c → ∀ it ip, it < nlat → ip < nphi →
    gv (s.shToSpatC q) (spos contig nlat nphi it ip)
      = toCx (fieldC s.lmax (cutC s.mmax c) (Real.arccos (x it)) (phiN nphi ip))
  ana : ∀ (v : List CR) (u : ℕ → ℕ → ℝ), v.length = s.nspat →
    (∀ it ip, it < nlat → ip < nphi → gv v (spos contig nlat nphi it ip) = fin (u it ip)) →
    ∀ l m, s.Res l m → s.cf (s.spatToSH v) l m
      = toCx (∑ it ∈ Finset.range nlat, (A l m it : ℂ)
          * ∑ ip ∈ Finset.range nphi, (u it ip : ℂ) * Complex.exp (-(Complex.I * m * phiN nphi ip)))
  anaC : ∀ (v : List (Cx CR)) (u : ℕ → ℕ → ℂ), v.length = s.nspat →
    (∀ it ip, it < nlat → ip < nphi → gv v (spos contig nlat nphi it ip) = toCx (u it ip)) →
    ∀ (l : ℕ) (m : ℤ), s.ResC l m → s.cfC (s.spatToSHC v) l m
      = toCx (∑ it ∈ Finset.range nlat, (wtZ A l m it : ℂ)
          * ∑ ip ∈ Finset.range nphi, u it ip * Complex.exp (-(Complex.I * m * phiN nphi ip)))

/-- `v` holds the values of the function `f(θ,φ)` at the nodes `θ=arccos(x it)`, `φ=2π ip/nphi`. -/
def Samples (contig : Bool) (nlat nphi : ℕ) (x : ℕ → ℝ) (v : List CR) (f : ℝ → ℝ → ℝ) : Prop :=
  v.length = nlat * nphi ∧ ∀ it ip, it < nlat → ip < nphi →
    gv v (spos contig nlat nphi it ip) = fin (f (Real.arccos (x it)) (phiN nphi ip))

/-- complex version of `Samples` -/
def SamplesC (contig : Bool) (nlat nphi : ℕ) (x : ℕ → ℝ) (v : List (Cx CR)) (f : ℝ → ℝ → ℂ) : Prop :=
  v.length = nlat * nphi ∧ ∀ it ip, it < nlat → ip < nphi →
    gv v (spos contig nlat nphi it ip) = toCx (f (Real.arccos (x it)) (phiN nphi ip))

end SFK
