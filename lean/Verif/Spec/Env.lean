import Verif.Model.Grid
import Verif.Spec.Grid
import Verif.Spec.SphereMath
import Verif.Spec.Cheb
/-
What is assumed of the linked libraries for a grid of given sizes, the admissible sizes, and the mathematical
compactification of the radius.
-/
namespace SFK
open CR

/-- Library sizes: the SHTns configuration has the documented sizes, and the FFTW plan exists and fills its output. -/
structure Env.Sized {α : Type} (E : Env α) (nx nl nm nlat nphi : Nat) : Prop where
  api : (E.sht nl nm nlat nphi).Api nl nm nlat nphi
  alloc : E.nspatAlloc nl nm nlat nphi = (E.sht nl nm nlat nphi).nspat
  plan : E.planOk nx = true
  dct : ∀ v, v.length = nx → (E.dct nx v).length = nx

/-- Admissible sizes: at least 8 radial points for finite differences (2 for Chebyshev), no empty angular direction,
everything addressable, and `nl` an `int`. -/
structure Sizes (useCheb : Bool) (nx nl nlat nphi : Nat) : Prop where
  nx_min : (if useCheb then 2 else 8) ≤ nx
  nlat_pos : 0 < nlat
  nphi_pos : 0 < nphi
  fits : nx * nlat * nphi < W
  fitsl : nx * nl < W
  nl_lt : nl < 2 ^ 31

/-- The libraries compute what they document, in exact arithmetic. -/
structure Env.Exact (E : Env CR) (nx nl nm nlat nphi : ℕ) (x : ℕ → ℝ) (A : ℕ → ℕ → ℕ → ℝ) : Prop where
  sized : E.Sized nx nl nm nlat nphi
  math : (E.sht nl nm nlat nphi).Math E.contig nlat nphi x A
  fftw : FftwOk nx (E.dct nx)

/-- The compactified radius `R(r)=r/(1+r/L)`. -/
noncomputable def compR (L r : ℝ) : ℝ := r / (1 + r / L)

/-- The physical radius of a compactified radius `R<L`. -/
noncomputable def physR (L R : ℝ) : ℝ := R / (1 - R / L)

/-- The `ix`-th radial point of the grid on `[lo,up]`. -/
noncomputable def radPt (useCheb : Bool) (n : ℕ) (lo up : ℝ) (ix : ℕ) : ℝ :=
  if useCheb then chebPt n lo up ix else lo + ix * ((up - lo) / ((n : ℝ) - 1))

end SFK
