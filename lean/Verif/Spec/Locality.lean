import Verif.Spec.Setup
import Verif.Spec.Symmetry
/-
Vocabulary of C100: agreement of two grid functions on some of the shells.
-/
namespace SFK
open Scalar

/-- The grid functions `u` and `v` have the same values (bit for bit) at all points of the shells in `S`. -/
def SameOn {α : Type} [Scalar α] (d : Dims) (S : ℕ → Prop) (u v : List α) : Prop :=
  ∀ ix it ip, ix < d.nx → it < d.nlat → ip < d.nphi → S ix → d.at3 u ix it ip = d.at3 v ix it ip

end SFK
