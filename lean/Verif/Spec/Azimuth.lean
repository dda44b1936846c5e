import Verif.Spec.Symmetry
import Verif.Spec.Setup
import Verif.Spec.Harmonics
import Verif.Spec.SphereMath
/-
Vocabulary of C111: reversing the azimuth, `φ → -φ`.
-/
namespace SFK
open Scalar CR

/-- `w` is the grid function `v` with the azimuth reversed: its value at the longitude number `ip` is that of `v` at the opposite longitude `2π-φ`. -/
def Reversed (d : Dims) (v w : List CR) : Prop :=
  ∀ ix it ip, ix < d.nx → it < d.nlat → ip < d.nphi → d.at3 w ix it ip = d.at3 v ix it ((d.nphi - ip) % d.nphi)

/-- The same black hole, field and grid with the opposite spin. -/
def ParamRec.spin (P : ParamRec CR) (a : ℝ) : ParamRec CR := { P with bh_spin := fin a }

/-- `f` has, on every shell, no content in the top degree `nl` and the top order `nm`: it is a sum of the other spherical harmonics. -/
def BelowTop (P : ParamRec CR) (d : Dims) (x : ℕ → ℝ) (f : List CR) : Prop :=
  ∃ c : ℕ → ℕ → ℕ → ℂ, (∀ ix l, (c ix l 0).im = 0) ∧ (∀ ix l m, l = P.nl ∨ m = P.nm → c ix l m = 0) ∧
    ∀ ix it ip, ix < d.nx → it < d.nlat → ip < d.nphi → d.at3 f ix it ip = fin (fieldR P.nl P.nm (c ix) (Real.arccos (x it)) (phiN P.nphi ip))

end SFK
