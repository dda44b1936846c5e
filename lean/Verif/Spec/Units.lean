import Verif.Spec.Symmetry
/-
Vocabulary of C103: the same physical system described in another unit of length.
-/
namespace SFK
open Scalar CR

/-- The same system with every length (black-hole mass and spin, compactification length, radial interval) and the time step multiplied by `s`, and the
coefficients of the potential, which are inverse squares of a length, divided by `s²`.  The field and the kinetic coefficients are
dimensionless. -/
noncomputable def Phys.rescale (s : ℝ) (q : Phys) : Phys :=
  { M := s * q.M, a := s * q.a, L := s * q.L, lo := s * q.lo, up := s * q.up, dt := s * q.dt, km1 := q.km1, k0 := q.k0, k1 := q.k1,
    k2 := q.k2, V2 := q.V2 / s ^ 2, V3 := q.V3 / s ^ 2, V4 := q.V4 / s ^ 2 }

/-- The two parameter records ask for the same grid sizes. -/
def SameSizes (P₁ P₂ : ParamRec CR) : Prop :=
  P₂.nx = P₁.nx ∧ P₂.nl = P₁.nl ∧ P₂.nm = P₁.nm ∧ P₂.nlat = P₁.nlat ∧ P₂.nphi = P₁.nphi

/-- A length that is zero, or above the code's absolute threshold `1e-16` in both units. -/
def Clear (s d : ℝ) : Prop := d = 0 ∨ (1 / 10 ^ 16 < |d| ∧ 1 / 10 ^ 16 < s * |d|)

/-- The lengths the code compares with its absolute threshold `1e-16` are clear of it in both units: the distance to extremality, the spin,
and the distances of the radial points from infinity. -/
structure Phys.Clear (s : ℝ) (q : Phys) (useCheb : Bool) (nx : ℕ) : Prop where
  extreme : SFK.Clear s (q.M - |q.a|)
  spin : SFK.Clear s q.a
  scri : ∀ ix, ix < nx → SFK.Clear s (radPt useCheb nx q.lo q.up ix - q.L)

/-- `w = c v`, entry by entry -/
def Scaled (c : ℝ) (v w : List CR) : Prop := w.length = v.length ∧ ∀ i, i < v.length → gv w i = fin c * gv v i

end SFK
