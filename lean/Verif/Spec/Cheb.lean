import Verif.Model.Cheb
import Verif.Model.CR
import Mathlib.RingTheory.Polynomial.Chebyshev
/-
Specification vocabulary for the Chebyshev grid: what FFTW promises for a REDFT00 plan, and the polynomial on
`[lower,upper]` with given Chebyshev coefficients.
-/
namespace SFK
open CR

/-- FFTW manual, section "1d Real-even DFTs (DCTs)": the REDFT00 output of `n=N+1` real numbers. -/
noncomputable def redft00 (N : ℕ) (u : ℕ → ℝ) (k : ℕ) : ℝ :=
  u 0 + (-1) ^ k * u N + 2 * ∑ j ∈ Finset.Ico 1 N, u j * Real.cos (Real.pi * j * k / N)

/-- A transform on buffers of `n` numbers that does what FFTW documents: it fills the whole output buffer, and on
finite data the result is `redft00`. -/
structure FftwOk (n : ℕ) (dct : List CR → List CR) : Prop where
  len : ∀ v, v.length = n → (dct v).length = n
  val : ∀ u : ℕ → ℝ, dct (tab n fun i => fin (u i)) = tab n fun k => fin (redft00 (n - 1) u k)

/-- The polynomial in the physical coordinate `x ∈ [lo,up]` with Chebyshev coefficients `a 0 .. a (n-1)`:
`∑ a_k T_k((2x-lo-up)/(up-lo))`. -/
noncomputable def chebPoly (n : ℕ) (lo up : ℝ) (a : ℕ → ℝ) : Polynomial ℝ :=
  ∑ k ∈ Finset.range n, Polynomial.C (a k) *
    (Polynomial.Chebyshev.T ℝ k).comp (Polynomial.C (2 / (up - lo)) * Polynomial.X - Polynomial.C ((up + lo) / (up - lo)))

/-- The `i`-th Chebyshev point of `[lo,up]`, `i=0..n-1` (upper end first). -/
noncomputable def chebPt (n : ℕ) (lo up : ℝ) (i : ℕ) : ℝ :=
  (up - lo) / 2 * Real.cos (Real.pi * i / ((n : ℝ) - 1)) + (up + lo) / 2

end SFK
