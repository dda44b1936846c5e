import Verif.Model.Scalar
import Verif.Model.ParamRec
/-
Model of the arithmetic of /repo/sim_class.py.
-/
namespace SFK
open Scalar
namespace Launcher
variable {α : Type} [Scalar α]

/-- sim_class.py:33-34 `compactification` (python floats are C doubles). -/
def compactification (cl r : α) : α := r / (1 + (r / cl))

/-- sim_class.py:38-43 `self.horizon`; `pow(x,0.5)` of a negative number is a python complex, which `Params` cannot
parse: the model's `rt` of a negative number is `bad`. -/
def horizon (m a : α) : α := m + rt ((m - a) * (m + a))

/-- sim_class.py:45-46 `self.rl`, `self.ru` from `rl_0`, `ru_0`. -/
def pulseRadius (m a r0 : α) : α := horizon m a * r0

/-- sim_class.py:48 `self.Rmin`. -/
def Rmin (cl m a : α) : α := compactification cl (horizon m a)

/-- sim_class.py:49 `self.Rmax`. -/
def Rmax (cl : α) : α := cl

/-- sim_class.py:67-71 `self.t_step_save`.  Simplification: `int(nt/float(num))` is the integer quotient (exact for
`nt<2^53`). -/
def tStepSave (nt num : Nat) : Nat :=
  let t := nt / num
  if t = 0 then 1 else t

/-- sim_class.py:51-63 `self.dt`.  `pow(n,-2)` of the python integer `n` is the float `1/n^2`; `min(a,b)` is `b` if `b<a` and `a`
otherwise.  For `n=0` python raises ZeroDivisionError: the model gives a non-number in exact arithmetic. -/
def timeStep (useCheb : Bool) (cfl : α) (nx nlat nphi : Nat) : α :=
  if useCheb then 6 * (1 / pown (dbl (max nx (max nlat nphi))) 2)
  else
    let a : α := 6 * (1 / pown (dbl (max nlat nphi)) 2)
    let b : α := cfl / (dbl nx - 1)
    if lt b a then b else a

/-- The attributes a run script sets (runscript_template.py:15-62) as far as they reach the solver. -/
structure Settings (α : Type) where
  mass : α
  spin : α
  cl : α
  evolve_time : α
  cfl : α
  rl_0 : α
  ru_0 : α
  num_saved_times : Nat
  nx : Nat
  nl : Nat
  nm : Nat
  nlat : Nat
  nphi : Nat
  use_cheb : Bool
  km1 : α
  k0 : α
  k1 : α
  k2 : α
  V2 : α
  V3 : α
  V4 : α
  l_ang : Int
  m_ang : Int
  amp : α
  id : List Char
  direction : List Char

/-- sim_class.py:36-71 `set_derived_params` followed by `write_sim_params` (sim_class.py:73-85) and the solver's reading of the file
(params.cpp; the text round trip is C59): the parameter values the solver runs with.  `toInt` is python's `int` of a non-negative
float.  Simplifications: python's float formatting round-trips exactly; `num_saved_times=0` (ZeroDivisionError in python) is not
excluded here and gives `tStepSave nt 0 = 1`. -/
def params (toInt : α → Nat) (S : Settings α) : ParamRec α :=
  let dt := timeStep S.use_cheb S.cfl S.nx S.nlat S.nphi
  let nt := toInt (S.evolve_time * S.mass / dt)
  { nt := nt, nx := S.nx, nl := S.nl, nm := S.nm, nlat := S.nlat, nphi := S.nphi, t_step_save := tStepSave nt S.num_saved_times
    dt := dt, cl := S.cl, Rmin := Rmin S.cl S.mass S.spin, Rmax := Rmax S.cl, bh_mass := S.mass, bh_spin := S.spin
    km1 := S.km1, k0 := S.k0, k1 := S.k1, k2 := S.k2, V2 := S.V2, V3 := S.V3, V4 := S.V4, id := S.id, direction := S.direction
    amp := S.amp, rl := pulseRadius S.mass S.spin S.rl_0, ru := pulseRadius S.mass S.spin S.ru_0, l_ang := S.l_ang, m_ang := S.m_ang }

end Launcher
end SFK
