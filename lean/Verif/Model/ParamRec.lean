import Verif.Model.Scalar
namespace SFK

/-- The parameter values held by class Params (params.hpp:26-60), as returned by its getters (params.hpp:80-120).
`l_ang`,`m_ang` are `int`; the sizes are `size_t`. -/
structure ParamRec (α : Type) where
  nt : Nat
  nx : Nat
  nl : Nat
  nm : Nat
  nlat : Nat
  nphi : Nat
  t_step_save : Nat
  dt : α
  cl : α
  Rmin : α
  Rmax : α
  bh_mass : α
  bh_spin : α
  km1 : α
  k0 : α
  k1 : α
  k2 : α
  V2 : α
  V3 : α
  V4 : α
  id : List Char
  direction : List Char
  amp : α
  rl : α
  ru : α
  l_ang : Int
  m_ang : Int

end SFK
