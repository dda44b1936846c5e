import Verif.Spec.Env
import Verif.Spec.Kerr
import Verif.Model.ScalarEom
/-
The objects of a run: the grid and equation-of-motion object main.cpp builds from a parameter record, and the real values
of the parameters in exact arithmetic.
-/
namespace SFK
open Scalar CR Kerr

/-- `g` is the grid main.cpp:26-35 builds from `P`, for admissible sizes and libraries respecting their buffer sizes. -/
structure BuiltGrid {α : Type} [Scalar α] (E : Env α) (P : ParamRec α) (g : Grid α) : Prop where
  sized : E.Sized P.nx P.nl P.nm P.nlat P.nphi
  sizes : Sizes E.useCheb P.nx P.nl P.nlat P.nphi
  grid : Grid.ctor E P.cl P.Rmin P.Rmax P.nx P.nl P.nm P.nlat P.nphi = .ok g

/-- The same with orders close enough to the degrees, so that no uninitialised memory is read. -/
structure Setup {α : Type} [Scalar α] (E : Env α) (P : ParamRec α) (g : Grid α) : Prop extends BuiltGrid E P g where
  orders : OrdersOk P.nl P.nm

/-- All seven work arrays have length `n`. -/
def Scratch.Sized {α : Type} (s : Scratch α) (n : Nat) : Prop :=
  s.dr_f.length = n ∧ s.lap_f.length = n ∧ s.dr_p.length = n ∧ s.dr_dr_f.length = n ∧ s.dphi_f.length = n ∧
    s.dphi_dr_f.length = n ∧ s.sphereX_f.length = n

/-- `e` is the object main.cpp:36 builds from `g`,`P`, with arbitrary later contents `s` of its work arrays. -/
def Eom.Of {α : Type} [Scalar α] (g : Grid α) (P : ParamRec α) (e : Eom α) : Prop :=
  ∃ e0 s, Eom.mk' g P = .ok e0 ∧ s.Sized (P.nx * P.nlat * P.nphi) ∧ e = { e0 with scr := s }

/-- Real values of the physical parameters. -/
structure Phys where
  M : ℝ
  a : ℝ
  L : ℝ
  lo : ℝ
  up : ℝ
  dt : ℝ
  km1 : ℝ
  k0 : ℝ
  k1 : ℝ
  k2 : ℝ
  V2 : ℝ
  V3 : ℝ
  V4 : ℝ

/-- The parameter record holds these values. -/
structure Phys.Is (q : Phys) (P : ParamRec CR) : Prop where
  M : P.bh_mass = fin q.M
  a : P.bh_spin = fin q.a
  L : P.cl = fin q.L
  lo : P.Rmin = fin q.lo
  up : P.Rmax = fin q.up
  dt : P.dt = fin q.dt
  km1 : P.km1 = fin q.km1
  k0 : P.k0 = fin q.k0
  k1 : P.k1 = fin q.k1
  k2 : P.k2 = fin q.k2
  V2 : P.V2 = fin q.V2
  V3 : P.V3 = fin q.V3
  V4 : P.V4 = fin q.V4

/-- A black hole (positive mass, spin at most the mass, away from the code's rounding thresholds) and a positive
compactification length. -/
structure Phys.Ok (q : Phys) : Prop where
  M_pos : 0 < q.M
  spin : |q.a| ≤ q.M
  noRound : NoRound q.M q.a
  L_pos : 0 < q.L

/-- kinetic prefactor and potential of the parameters -/
noncomputable def Phys.kin (q : Phys) : ℝ → ℝ := Kerr.kin q.km1 q.k0 q.k1 q.k2
noncomputable def Phys.pot (q : Phys) : ℝ → ℝ := Kerr.pot q.V2 q.V3 q.V4

/-- The documented coefficients at radius `r`: the wave operator (first 7) and `(∇ψ)²` (next 5) divided by
`1+2Mr/Σ` (main.tex:179-217), the energy density bracket times 1/2 (main.tex:305-333). -/
noncomputable def docCoef (M a r θ : ℝ) : Coef ℝ :=
  let S := Sig a r θ
  let N := 1 + 2 * M * r / S
  { pre := 1 / N
    p_p := 2 * M / S / N
    p_dr_f := 2 * (r - M) / S / N
    p_dr_p := 4 * M * r / S / N
    p_dr_dr_f := Del M a r / S / N
    p_dphi_dr_f := 2 * a / S / N
    p_lap_f := 1 / S / N
    p_p_p := -N / N
    p_p_dr_f := 4 * M * r / S / N
    p_dr_f_dr_f := Del M a r / S / N
    p_dr_f_dphi_f := 2 * a / S / N
    p_sphereX_f := 1 / S / N
    rho_vv := 1 / 2 * N
    rho_vr := 1 / 2 * (4 * M * r / S)
    rho_rr := 1 / 2 * ((r ^ 2 + 2 * M * r + a ^ 2) / S - 4 * M * r / (2 * M * r + S))
    rho_rphi := 1 / 2 * (2 * a / S)
    rho_sphereX := 1 / 2 * (1 / S) }

/-- all 17 components -/
def Coef.projs {α : Type} : List (Coef α → α) :=
  [Coef.pre, Coef.p_p, Coef.p_dr_f, Coef.p_dr_p, Coef.p_dr_dr_f, Coef.p_dphi_dr_f, Coef.p_lap_f, Coef.p_p_p, Coef.p_p_dr_f,
   Coef.p_dr_f_dr_f, Coef.p_dr_f_dphi_f, Coef.p_sphereX_f, Coef.rho_vv, Coef.rho_vr, Coef.rho_rr, Coef.rho_rphi,
   Coef.rho_sphereX]

/-- apply a function to every component -/
def Coef.map {α β : Type} (f : α → β) (c : Coef α) : Coef β :=
  ⟨f c.pre, f c.p_p, f c.p_dr_f, f c.p_dr_p, f c.p_dr_dr_f, f c.p_dphi_dr_f, f c.p_lap_f, f c.p_p_p, f c.p_p_dr_f,
   f c.p_dr_f_dr_f, f c.p_dr_f_dphi_f, f c.p_sphereX_f, f c.rho_vv, f c.rho_vr, f c.rho_rr, f c.rho_rphi, f c.rho_sphereX⟩

/-- The seven derivative arrays of `(f,p)` as the public grid operators return them, whatever their output arrays contained and
whatever uninitialised memory they use. -/
structure Derivs (g : Grid CR) (f p dr drp drr dph drph X lap : List CR) : Prop where
  h_dr : ∀ z, z.length = f.length → g.set_partial_r f z = .ok dr
  h_drp : ∀ z, z.length = f.length → g.set_partial_r p z = .ok drp
  h_drr : ∀ z, z.length = f.length → g.set_partial2_r f z = .ok drr
  h_dph : ∀ J z, z.length = f.length → g.set_partial_phi J f z = .ok dph
  h_drph : ∀ z, z.length = f.length → g.set_partial_r dph z = .ok drph
  h_X : ∀ J z, z.length = f.length → g.set_sphereX J f z = .ok X
  h_lap : ∀ J z, z.length = f.length → g.set_spherical_lap J f z = .ok lap

/-- The jet `j` holds the values of the fields and derivative arrays at a grid point. -/
structure JetAt (g : Grid CR) (ix it ip : ℕ) (f p dr drp drr dph drph X lap : List CR) (j : Jet) : Prop where
  psi : g.d.at3 f ix it ip = fin j.psi
  v : g.d.at3 p ix it ip = fin j.v
  r : g.d.at3 dr ix it ip = fin j.r
  vr : g.d.at3 drp ix it ip = fin j.vr
  rr : g.d.at3 drr ix it ip = fin j.rr
  phi : g.d.at3 dph ix it ip = fin j.phi
  rphi : g.d.at3 drph ix it ip = fin j.rphi
  ang : g.d.at3 X ix it ip = fin j.ang
  lap : g.d.at3 lap ix it ip = fin j.lap

/-- All four arrays of a field have `n` entries, as after `Field(name, n, init)` (field.cpp:4-19). -/
def Field.Sized {α : Type} (f : Field α) (n : Nat) : Prop :=
  f.n.length = n ∧ f.l.length = n ∧ f.np1.length = n ∧ f.k.length = n ∧ f.size = n

/-- `(ku,kv)` are the time derivatives `set_k` computes for the state `(u,v)`, whatever its work arrays, its output arrays and the
uninitialised memory hold. -/
def Slopes {α : Type} [Scalar α] (e : Eom α) (g : Grid α) (u v ku kv : List α) : Prop :=
  ∀ (J : Junk (Cx α)) (s : Scratch α) (ou ov : List α), s.Sized u.length → ou.length = u.length → ov.length = u.length →
    ∃ e', Eom.set_k { e with scr := s } g J u v ou ov = .ok (e', ku, kv)

end SFK
