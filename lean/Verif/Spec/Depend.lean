import Verif.Model.CR
import Verif.Model.ParamRec
import Verif.Model.Base
/-
Vocabulary of C123: grid functions and parameters within `ε` of each other.
-/
namespace SFK
open Scalar CR

/-- both numbers are finite and they differ by at most `ε` -/
def Within (ε : ℝ) (a b : CR) : Prop := ∃ x y, a = fin x ∧ b = fin y ∧ |x - y| ≤ ε

/-- both grid functions are finite everywhere and they differ by at most `ε` at every grid point -/
def WithinL (ε : ℝ) (v w : List CR) : Prop := v.length = w.length ∧ ∀ i, i < w.length → Within ε (gv v i) (gv w i)

/-- the sizes agree, and the numerical parameters of the evolution differ by at most `ε` -/
structure ParWithin (ε : ℝ) (P P0 : ParamRec CR) : Prop where
  nx : P.nx = P0.nx
  nl : P.nl = P0.nl
  nm : P.nm = P0.nm
  nlat : P.nlat = P0.nlat
  nphi : P.nphi = P0.nphi
  dt : Within ε P.dt P0.dt
  cl : Within ε P.cl P0.cl
  Rmin : Within ε P.Rmin P0.Rmin
  Rmax : Within ε P.Rmax P0.Rmax
  mass : Within ε P.bh_mass P0.bh_mass
  spin : Within ε P.bh_spin P0.bh_spin
  km1 : Within ε P.km1 P0.km1
  k0 : Within ε P.k0 P0.k0
  k1 : Within ε P.k1 P0.k1
  k2 : Within ε P.k2 P0.k2
  V2 : Within ε P.V2 P0.V2
  V3 : Within ε P.V3 P0.V3
  V4 : Within ε P.V4 P0.V4

end SFK
