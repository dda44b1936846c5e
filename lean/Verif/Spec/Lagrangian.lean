import Verif.Spec.Units
import Verif.Spec.Setup
/-
Vocabulary of C112-C114: changes of the Lagrangian and of the field that the physics does not see.
-/
namespace SFK
open Scalar CR

/-- The same system with its Lagrangian - kinetic function and potential - multiplied by `s`. -/
noncomputable def Phys.times (q : Phys) (s : ℝ) : Phys :=
  { q with
    km1 := s * q.km1, k0 := s * q.k0, k1 := s * q.k1, k2 := s * q.k2, V2 := s * q.V2, V3 := s * q.V3, V4 := s * q.V4 }

/-- The same system with the field measured in another unit: what was the value `ψ` is now the value `c ψ`.  (For systems without the pole term,
`km1=0`; the Lagrangian is multiplied by `c²`.) -/
noncomputable def Phys.refield (q : Phys) (c : ℝ) : Phys := { q with k1 := q.k1 / c, k2 := q.k2 / c ^ 2, V3 := q.V3 / c, V4 := q.V4 / c ^ 2 }

/-- Same numbers plus the constant `c`. -/
def Raised (c : ℝ) (v w : List CR) : Prop := w.length = v.length ∧ ∀ i, i < v.length → gv w i = gv v i + CR.fin c

end SFK
