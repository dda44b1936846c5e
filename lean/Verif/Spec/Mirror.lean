import Verif.Spec.Symmetry
/-
Vocabulary of C104: reflection about the equatorial plane, `θ → π-θ`.
-/
namespace SFK
open Scalar CR

/-- The polar nodes and the quadrature weights of the transform library are symmetric about the equator.  This holds for the Gauss and the
regular grids of SHTns: the nodes come in pairs `±x`, the weight of a node is that of its partner, and `Θ_lm(π-θ) = (-1)^(l+m) Θ_lm(θ)`. -/
structure EquatorSym (nlat nl nm : ℕ) (x : ℕ → ℝ) (A : ℕ → ℕ → ℕ → ℝ) : Prop where
  node : ∀ it, it < nlat → x (nlat - 1 - it) = -x it
  weight : ∀ l m it, l ≤ nl → m ≤ l → m ≤ nm → it < nlat → A l m (nlat - 1 - it) = (-1) ^ (l + m) * A l m it

/-- `w` is the grid function `v` reflected about the equatorial plane. -/
def Mirrored (d : Dims) (v w : List CR) : Prop :=
  ∀ ix it ip, ix < d.nx → it < d.nlat → ip < d.nphi → d.at3 w ix it ip = d.at3 v ix (d.nlat - 1 - it) ip

/-- `w` is the opposite of the grid function `v` reflected about the equatorial plane. -/
def AntiMirrored (d : Dims) (v w : List CR) : Prop :=
  ∀ ix it ip, ix < d.nx → it < d.nlat → ip < d.nphi → d.at3 w ix it ip = -d.at3 v ix (d.nlat - 1 - it) ip

end SFK
