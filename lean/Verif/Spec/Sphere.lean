import Verif.Model.Sphere
import Verif.Model.CR
import Mathlib.Analysis.Complex.Basic
/-
Specification vocabulary for the spherical transforms: what is assumed of the SHTns library (sizes only; the
numerical contract is stated where it is needed) and how coefficients are addressed.
-/
namespace SFK
open Scalar

/-- `(l,m)` is a resolved real mode. -/
def Shtns.Res {α : Type} (s : Shtns α) (l m : Nat) : Prop := m ≤ l ∧ l ≤ s.lmax ∧ m ≤ s.mmax

/-- Size contract of a configuration made by `shtns_create(lmax,mmax,1,...)` and `shtns_set_grid(...,nlat,nphi)`
(shtns.h: documentation of `nlm`, `nspat`, `ct`, and of the transform functions). -/
structure Shtns.Api {α : Type} (s : Shtns α) (lmax mmax nlat nphi : Nat) : Prop where
  lmax_eq : s.lmax = lmax
  mmax_eq : s.mmax = mmax
  m_le : mmax ≤ lmax
  nlm_eq : s.nlm = (mmax + 1) * (lmax + 1) - mmax * (mmax + 1) / 2
  nspat_eq : s.nspat = nlat * nphi
  nphi_eq : s.nphi = nphi
  mres_eq : s.mres = 1
  ct_len : s.ct.length = nlat
  len_spatToSH : ∀ v, v.length = s.nspat → (s.spatToSH v).length = s.nlm
  len_shToSpat : ∀ q, q.length = s.nlm → (s.shToSpat q).length = s.nspat
  len_spatToSHC : ∀ v, v.length = s.nspat → (s.spatToSHC v).length = s.ncp
  len_shToSpatC : ∀ q, q.length = s.ncp → (s.shToSpatC q).length = s.nspat
  len_clobR : ∀ v, (s.clobR v).length = v.length
  len_clobY : ∀ q, (s.clobY q).length = q.length

/-- The `(l,m)` coefficient stored in a real-transform coefficient array. -/
def Shtns.cf {α : Type} [Inhabited α] (s : Shtns α) (q : List (Cx α)) (l m : Nat) : Cx α := gv q (s.LM l m)

/-- shtns.h `LM_cplx(shtns,l,m)`: how SHTns (3.x) stores the coefficients of a complex field: each degree holds only the
orders `|m|≤min(l,mmax)`, one degree after the other.  For `mmax=lmax` this is `l(l+1)+m`. -/
def pidx (mmax l : Nat) (m : Int) : Int := if l ≤ mmax then l * (l + 1) + m else mmax * (2 * l - mmax) + l + m

/-- `(l,m)` is a resolved mode of a complex field. -/
def Shtns.ResC {α : Type} (s : Shtns α) (l : Nat) (m : Int) : Prop := l ≤ s.lmax ∧ |m| ≤ (l : Int) ∧ |m| ≤ (s.mmax : Int)

/-- The `(l,m)` coefficient, `-l≤m≤l`, stored in a complex-transform coefficient array. -/
def Shtns.cfC {α : Type} [Inhabited α] (s : Shtns α) (q : List (Cx α)) (l : Nat) (m : Int) : Cx α := gv q (pidx s.mmax l m).toNat

/-- What the constructor establishes about a Sphere built for a configuration with the size contract
(`nl` comes from `std::stoi`, so it is below 2^31, which the casts `int(l)` of sphere.cpp:269,303 need). -/
structure Sphere.Wf {α : Type} [Scalar α] (s : Sphere α) : Prop where
  lmax_lt : s.lmax < 2 ^ 31
  api : s.sht.Api s.lmax s.mmax s.nlat s.nphi
  nSph_eq : s.nSph = s.sht.nspat
  nYlm_eq : s.nYlm = s.sht.nlm
  lap_eq : s.lap = tab s.lmax fun l => -(dbl l) * (dbl l + 1)
  low_eq : s.lowPass = tab s.lmax fun l => exp (-40 * pown (dbl l / dbl s.lmax) 16)

/-- The orders are not truncated too far: `lower` and `sphereX` loop over `nl^2` coefficients of a complex field, and with this
many orders SHTns stores at least that many, namely `(nl+1)^2-(nl-nm)(nl-nm+1)` (`nm=nl` and `nm=nl-1` always satisfy it; for `nl=20` it says `nm≥15`). -/
def OrdersOk (nl nm : Nat) : Prop := (nl - nm) * (nl - nm + 1) ≤ 2 * nl + 1

/-! Representable fields: exact arithmetic (`CR`) -/

/-- A complex number as a pair of finite doubles. -/
def toCx (z : ℂ) : Cx CR := ⟨.fin z.re, .fin z.im⟩

namespace Shtns
variable (s : Shtns CR)

/-- `q` is the coefficient array whose resolved `(l,m)` entries are `c l m`. -/
def IsCoefs (q : List (Cx CR)) (c : ℕ → ℕ → ℂ) : Prop :=
  q.length = s.nlm ∧ ∀ l m, s.Res l m → s.cf q l m = toCx (c l m)

/-- `v` is the real field with the spherical-harmonic coefficients `c` (`m≥0`; the `m=0` coefficients of a real
field are real). -/
def Rep (v : List CR) (c : ℕ → ℕ → ℂ) : Prop :=
  (∀ l, l ≤ s.lmax → (c l 0).im = 0) ∧ ∃ q, s.IsCoefs q c ∧ v = s.shToSpat q

/-- `q` is the complex-transform coefficient array whose resolved entries are `c l m`. -/
def IsCoefsC (q : List (Cx CR)) (c : ℕ → ℤ → ℂ) : Prop :=
  q.length = s.ncp ∧ ∀ (l : ℕ) (m : ℤ), s.ResC l m → s.cfC q l m = toCx (c l m)

/-- `v` is the complex field with the (resolved) coefficients `c`. -/
def RepC (v : List (Cx CR)) (c : ℕ → ℤ → ℂ) : Prop := ∃ q, s.IsCoefsC q c ∧ v = s.shToSpatC q

/-- Numerical contract of the library used by the coefficient-level theorems: analysis recovers the coefficients of
every synthesised field (exact quadrature: `nlat>lmax`, `nphi>2*mmax`). -/
structure RoundTrip : Prop where
  real : ∀ v c, s.Rep v c → s.IsCoefs (s.spatToSH v) c
  cplx : ∀ v c, s.RepC v c → s.IsCoefsC (s.spatToSHC v) c

end Shtns

/-- `raise` on coefficients: `sqrt((l-m+1)(l+m)) f_{l,m-1}` below the top degree, unchanged in the top degree. -/
noncomputable def raised (L : ℕ) (c : ℕ → ℤ → ℂ) (l : ℕ) (m : ℤ) : ℂ :=
  if l < L then (if m = -l then 0 else (Real.sqrt ((l - m + 1) * (l + m)) : ℝ) * c l (m - 1)) else c l m

/-- `lower` on coefficients: `sqrt((l+m+1)(l-m)) f_{l,m+1}` below the top degree, unchanged in the top degree. -/
noncomputable def lowered (L : ℕ) (c : ℕ → ℤ → ℂ) (l : ℕ) (m : ℤ) : ℂ :=
  if l < L then (if m = l then 0 else (Real.sqrt ((l + m + 1) * (l - m)) : ℝ) * c l (m + 1)) else c l m

end SFK
