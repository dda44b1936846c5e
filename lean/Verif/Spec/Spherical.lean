import Verif.Spec.Refine
/-
Vocabulary of C95 and C96: spherically symmetric grid functions.
-/
namespace SFK
open Scalar CR

/-- The grid function does not depend on the angles. -/
def Spherical (d : Dims) (v : List CR) : Prop :=
  ∀ ix it ip it' ip', ix < d.nx → it < d.nlat → ip < d.nphi → it' < d.nlat → ip' < d.nphi → d.at3 v ix it ip = d.at3 v ix it' ip'

end SFK
