import Verif.Spec.Symmetry
/-
Vocabulary of C122: the parity of a grid function on the spheres of the grid.
-/
namespace SFK
open Scalar CR

/-- `v` has the parity `s` on every shell: at the grid point antipodal to a grid point (the opposite latitude, half way around the axis; the number
of azimuthal points being even) it is `s` times its value at the point. -/
def Parity (d : Dims) (s : ℝ) (v : List CR) : Prop :=
  ∀ ix it ip, ix < d.nx → it < d.nlat → ip < d.nphi → d.at3 v ix (d.nlat - 1 - it) ((ip + d.nphi / 2) % d.nphi) = fin s * d.at3 v ix it ip

/-- The opposite of `v`, shifted by `k` azimuthal grid points, is `v`. -/
def TurnsOver (d : Dims) (k : ℕ) (v : List CR) : Prop :=
  ∀ ix it ip, ix < d.nx → it < d.nlat → ip < d.nphi → d.at3 v ix it ((ip + k) % d.nphi) = -d.at3 v ix it ip

end SFK
