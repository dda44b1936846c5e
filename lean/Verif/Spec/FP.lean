import Verif.Model.FP
import Verif.Spec.Symmetry
/-
Vocabulary of the rounding properties: a run in floating-point arithmetic beside the run in exact arithmetic it approximates.
-/
namespace SFK
open Scalar CR

/-- the array of floating-point numbers `v` holds the real numbers `u 0`, ..., `u (n-1)` -/
def Format.Vals (φ : Format) (n : ℕ) (v : List φ.T) (u : ℕ → ℝ) : Prop := v.length = n ∧ ∀ i, i < n → φ.val (gv v i) = some (u i)

/-- the same in exact arithmetic -/
def ExactVals (n : ℕ) (v : List CR) (u : ℕ → ℝ) : Prop := v.length = n ∧ ∀ i, i < n → gv v i = fin (u i)

/-- the floating-point number `x` is within `κ eps` of the exact number `X` -/
def Format.Close (φ : Format) (κ : ℝ) (x : φ.T) (X : CR) : Prop := ∃ y r, φ.val x = some y ∧ X = fin r ∧ |y - r| ≤ κ * φ.eps

/-- an array of complex numbers as the array of doubles it is in memory -/
def flat {α : Type} (z : List (Cx α)) : List α := z.flatMap fun c => [c.re, c.im]

/-- In exact arithmetic the library routine `F` multiplies `n` numbers by the matrix `A` and returns `m` numbers. -/
def IsMat {X Y : Type} (n m : ℕ) (inp : X → List CR) (out : Y → List CR) (F : X → Y) (A : ℕ → ℕ → ℝ) : Prop :=
  ∀ V u, ExactVals n (inp V) u → ExactVals m (out (F V)) fun i => ∑ j ∈ Finset.range n, A i j * u j

/-- In floating-point arithmetic the library routine `f` does so up to `K eps` times the size of the data, unless they come close to
the range of the format. -/
def Format.ApproxMat (φ : Format) (K : ℝ) {X Y : Type} (n m : ℕ) (inp : X → List φ.T) (out : Y → List φ.T) (f : X → Y) (A : ℕ → ℕ → ℝ) : Prop :=
  ∀ v u, φ.Vals n (inp v) u → K * (1 + ∑ j ∈ Finset.range n, |u j|) ≤ φ.Omega →
    ∃ w, φ.Vals m (out (f v)) w ∧
      ∀ i, i < m → |w i - ∑ j ∈ Finset.range n, A i j * u j| ≤ K * φ.eps * (1 + ∑ j ∈ Finset.range n, |u j|)

/-- the matrices of the five library routines: real analysis and synthesis, complex analysis and synthesis, cosine transform -/
structure LibMats where
  ana : ℕ → ℕ → ℝ
  syn : ℕ → ℕ → ℝ
  anaC : ℕ → ℕ → ℝ
  synC : ℕ → ℕ → ℝ
  dct : ℕ → ℕ → ℝ

/-- number of coefficients of a real transform -/
def nlmOf (nl nm : ℕ) : ℕ := (nm + 1) * (nl + 1) - nm * (nm + 1) / 2

/-- number of coefficients of a complex transform: `2l+1` of each degree up to `nm`, `2nm+1` of the others -/
def ncpOf (nl nm : ℕ) : ℕ := (nm + 1) ^ 2 + (nl - nm) * (2 * nm + 1)

/-- The exact libraries multiply by these matrices, and no polar node is a pole. -/
structure Env.Mats (E : Env CR) (nx nl nm nlat nphi : ℕ) (M : LibMats) : Prop where
  ana : IsMat (nlat * nphi) (2 * nlmOf nl nm) id flat (E.sht nl nm nlat nphi).spatToSH M.ana
  syn : IsMat (2 * nlmOf nl nm) (nlat * nphi) flat id (E.sht nl nm nlat nphi).shToSpat M.syn
  anaC : IsMat (2 * (nlat * nphi)) (2 * ncpOf nl nm) flat flat (E.sht nl nm nlat nphi).spatToSHC M.anaC
  synC : IsMat (2 * ncpOf nl nm) (2 * (nlat * nphi)) flat flat (E.sht nl nm nlat nphi).shToSpatC M.synC
  dct : E.useCheb = true → IsMat nx nx id id (E.dct nx) M.dct
  nodes : ∀ it, it < nlat → ∃ x, gv (E.sht nl nm nlat nphi).ct it = fin x ∧ -1 < x ∧ x < 1

/-- The floating-point libraries approximate these matrices. -/
structure Format.LibApprox (φ : Format) (K : ℝ) (E : Env φ.T) (nx nl nm nlat nphi : ℕ) (M : LibMats) : Prop where
  ana : φ.ApproxMat K (nlat * nphi) (2 * nlmOf nl nm) id flat (E.sht nl nm nlat nphi).spatToSH M.ana
  syn : φ.ApproxMat K (2 * nlmOf nl nm) (nlat * nphi) flat id (E.sht nl nm nlat nphi).shToSpat M.syn
  anaC : φ.ApproxMat K (2 * (nlat * nphi)) (2 * ncpOf nl nm) flat flat (E.sht nl nm nlat nphi).spatToSHC M.anaC
  synC : φ.ApproxMat K (2 * ncpOf nl nm) (2 * (nlat * nphi)) flat flat (E.sht nl nm nlat nphi).shToSpatC M.synC
  dct : E.useCheb = true → φ.ApproxMat K nx nx id id (E.dct nx) M.dct

/-- The floating-point parameters are the exact ones, rounded; the sizes agree. -/
structure Format.ParClose (φ : Format) (κ : ℝ) (P : ParamRec φ.T) (P0 : ParamRec CR) : Prop where
  nx : P.nx = P0.nx
  nl : P.nl = P0.nl
  nm : P.nm = P0.nm
  nlat : P.nlat = P0.nlat
  nphi : P.nphi = P0.nphi
  dt : φ.Close κ P.dt P0.dt
  cl : φ.Close κ P.cl P0.cl
  Rmin : φ.Close κ P.Rmin P0.Rmin
  Rmax : φ.Close κ P.Rmax P0.Rmax
  mass : φ.Close κ P.bh_mass P0.bh_mass
  spin : φ.Close κ P.bh_spin P0.bh_spin
  km1 : φ.Close κ P.km1 P0.km1
  k0 : φ.Close κ P.k0 P0.k0
  k1 : φ.Close κ P.k1 P0.k1
  k2 : φ.Close κ P.k2 P0.k2
  V2 : φ.Close κ P.V2 P0.V2
  V3 : φ.Close κ P.V3 P0.V3
  V4 : φ.Close κ P.V4 P0.V4

/-- The floating-point array is the exact one, rounded. -/
def Format.CloseL (φ : Format) (κ : ℝ) (v : List φ.T) (V : List CR) : Prop :=
  v.length = V.length ∧ ∀ i, i < V.length → φ.Close κ (gv v i) (gv V i)

/-- A run in floating-point arithmetic (`E`, `P`, `g`, `e`) beside the exact one (`E0`, `P0`): same build, rounded parameters and
polar nodes, libraries accurate up to rounding. -/
structure Format.Run (φ : Format) (κ : ℝ) (M : LibMats) (E0 : Env CR) (P0 : ParamRec CR) (E : Env φ.T) (P : ParamRec φ.T)
    (g : Grid φ.T) (e : Eom φ.T) : Prop where
  setup : Setup E P g
  eom : Eom.Of g P e
  contig : E.contig = E0.contig
  ndebug : E.ndebug = E0.ndebug
  useCheb : E.useCheb = E0.useCheb
  par : φ.ParClose κ P P0
  lib : φ.LibApprox κ E P0.nx P0.nl P0.nm P0.nlat P0.nphi M
  ct : ∀ it, it < P0.nlat → φ.Close κ (gv (E.sht P0.nl P0.nm P0.nlat P0.nphi).ct it) (gv (E0.sht P0.nl P0.nm P0.nlat P0.nphi).ct it)

/-- None of the comparisons the code makes with `1e-16` (scalar_eom.cpp:67,77-81, grid.hpp:298) is an exact tie, and the
mass is not negative (so that the root of `M^2-a^2` is not taken at zero). -/
structure Phys.NoTies (q : Phys) (useCheb : Bool) (nx : ℕ) : Prop where
  mass : 0 ≤ q.M
  extreme : abs (q.M - |q.a|) ≠ 1 / 10 ^ 16
  spin : |q.a| ≠ 1 / 10 ^ 16
  scri : ∀ ix, ix < nx → |radPt useCheb nx q.lo q.up ix - q.L| ≠ 1 / 10 ^ 16

end SFK
