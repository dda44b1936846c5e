import Verif.Model.GridIndex
import Verif.Model.FD
import Verif.Model.Cheb
import Verif.Model.Sphere
/-
Model of /repo/Source/grid.cpp and of the coordinate accessors of /repo/Source/grid.hpp.
-/
namespace SFK
open Scalar

/-- The member `_radial` of class Grid: `FD` or `Cheb` depending on the build flag `USE_CHEB` (grid.hpp:238-242). -/
inductive Radial (α : Type) where
  | fd (r : FD α)
  | cheb (r : Cheb α)

namespace Radial
variable {α : Type} [Scalar α]

/-- `_radial.pt(ix)`: finite_diff.cpp:221 resp. cheb.cpp:139. -/
def pt : Radial α → Nat → Exec α
  | .fd r, i => .ok (r.pt i)
  | .cheb r, i => r.pt i

/-- `_radial.der(v,dv)`: finite_diff.cpp:23-99 resp. cheb.cpp:88-120. -/
def der : Radial α → List α → List α → Exec (List α)
  | .fd r, v, dv => r.der v dv
  | .cheb r, v, dv => r.der v dv

/-- grid.cpp:214-220: the two derivatives needed by `set_partial2_r` (`#if USE_CHEB` branch and `#else` branch).
Returns the new contents of `(inter_dv, inter_ddv)`. -/
def der12 : Radial α → List α → List α → List α → Exec (List α × List α)
  | .cheb r, v, dv, ddv => do
    let dv ← r.der v dv
    let ddv ← r.der dv ddv
    .ok (dv, ddv)
  | .fd r, v, dv, ddv => do
    let dv ← r.der v dv
    let ddv ← r.der2 v ddv
    .ok (dv, ddv)

end Radial

/-- The three stored coordinates of a point (`std::vector<double>` of size 3; simplification: a record). -/
structure P3 (α : Type) where
  x0 : α
  x1 : α
  x2 : α
deriving DecidableEq, Repr

/-- Two stored coordinates (`std::vector<double>` of size 2). -/
structure P2 (α : Type) where
  x0 : α
  x1 : α
deriving DecidableEq, Repr

instance {α : Type} [Inhabited α] : Inhabited (P3 α) := ⟨⟨default, default, default⟩⟩
instance {α : Type} [Inhabited α] : Inhabited (P2 α) := ⟨⟨default, default⟩⟩

/-- Build flags (Source/Makefile:18-37: `NDEBUG`, `USE_CHEB`, `SHTNS_CONTIGUOUS_LONGITUDES`) and the external libraries
the program is linked with: the SHTns configuration `shtns_create`/`shtns_set_grid` return for `(nl,nm,nlat,nphi)`
(sphere.cpp:20-43), the allocation size `shtns_set_grid` reports (sphere.cpp:25,36), and the FFTW plan for `n` points
(cheb.cpp:29-36). -/
structure Env (α : Type) where
  contig : Bool
  ndebug : Bool
  useCheb : Bool
  sht : Nat → Nat → Nat → Nat → Shtns α
  nspatAlloc : Nat → Nat → Nat → Nat → Nat
  dct : Nat → List α → List α
  planOk : Nat → Bool

/-- The data members of class Grid (grid.hpp:228-253); `_n_l` is present only under `USE_CHEB` and is computed in
both builds here. -/
structure Grid (α : Type) where
  d : Dims
  cl : α
  Rmin : α
  Rmax : α
  sphere : Sphere α
  radial : Radial α
  R_th_ph : List (P3 α)
  x_y_z : List (P3 α)
  x_z : List (P2 α)
  th_ph : List (P2 α)
  R_th : List (P2 α)
  R_l : List (P2 α)
  n_l : List (P2 α)
  dR : List α
  d2R : List α

namespace Grid
variable {α : Type} [Scalar α]

/-- grid.cpp:29-47, the loop filling `_R_th_ph` and `_x_y_z` (the three component stores of a point are one store of
a record here). -/
def mkPts3 (d : Dims) (s : Sphere α) (r : Radial α) : Exec (List (P3 α) × List (P3 α)) :=
  let z : List (P3 α) := List.replicate d.nFull ⟨0, 0, 0⟩
  forRange 0 d.nx (z, z) fun ix st => forRange 0 d.nlat st fun it st => forRange 0 d.nphi st fun ip st => do
    let R ← r.pt ix
    let theta ← s.theta it
    let phi := s.phi ip
    let a ← wr st.1 (d.indx_R_th_ph ix it ip) ⟨R, theta, phi⟩
    let b ← wr st.2 (d.indx_R_th_ph ix it ip)
      ⟨R * cos phi * sin theta, R * sin phi * sin theta, R * cos theta⟩
    .ok (a, b)

/-- grid.cpp:48-56, `_th_ph`. -/
def mkThPh (d : Dims) (s : Sphere α) : Exec (List (P2 α)) :=
  forRange 0 d.nlat (List.replicate (umul d.nphi d.nlat) ⟨0, 0⟩) fun it v => forRange 0 d.nphi v fun ip v => do
    let theta ← s.theta it
    wr v (d.indx_th_ph it ip) ⟨theta, s.phi ip⟩

/-- grid.cpp:57-68, `_R_th` and `_x_z`. -/
def mkRTh (d : Dims) (s : Sphere α) (r : Radial α) : Exec (List (P2 α) × List (P2 α)) :=
  let z : List (P2 α) := List.replicate (umul d.nx d.nlat) ⟨0, 0⟩
  forRange 0 d.nx (z, z) fun ix st => forRange 0 d.nlat st fun it st => do
    let R ← r.pt ix
    let theta ← s.theta it
    let a ← wr st.1 (d.indx_r_th ix it) ⟨R, theta⟩
    let b ← wr st.2 (d.indx_r_th ix it) ⟨R * sin theta, R * cos theta⟩
    .ok (a, b)

/-- grid.cpp:72-84, `_R_l` and (USE_CHEB) `_n_l`. -/
def mkRL (d : Dims) (r : Radial α) : Exec (List (P2 α) × List (P2 α)) :=
  let z : List (P2 α) := List.replicate (umul d.nx d.nl) ⟨0, 0⟩
  forRange 0 d.nx (z, z) fun ix st => forRange 0 d.nl st fun il st => do
    let R ← r.pt ix
    let a ← wr st.1 (d.indx_r_l ix il) ⟨R, dbl il⟩
    let b ← wr st.2 (d.indx_r_l ix il) ⟨dbl ix, dbl il⟩
    .ok (a, b)

/-- grid.cpp:85-90, `_dR_over_dr` and `_d2R_over_dr2`. -/
def mkJac (d : Dims) (cl : α) (r : Radial α) : Exec (List α × List α) :=
  let z : List α := List.replicate d.nx 0
  forRange 0 d.nx (z, z) fun ix st => do
    let R ← r.pt ix
    let a ← wr st.1 ix (pown (1 - (R / cl)) 2)
    let b ← wr st.2 ix ((-2 / cl) * pown (1 - (R / cl)) 3)
    .ok (a, b)

/-- grid.cpp:7-92, the constructor, given the members `_sphere` and `_radial` it constructs first (lines 24-25). -/
def mk' (d : Dims) (cl Rmin Rmax : α) (s : Sphere α) (r : Radial α) : Exec (Grid α) := do
  let (rtp, xyz) ← mkPts3 d s r
  let tp ← mkThPh d s
  let (rt, xz) ← mkRTh d s r
  let (rl, nl) ← mkRL d r
  let (dR, d2R) ← mkJac d cl r
  .ok { d := d, cl := cl, Rmin := Rmin, Rmax := Rmax, sphere := s, radial := r, R_th_ph := rtp, x_y_z := xyz,
        x_z := xz, th_ph := tp, R_th := rt, R_l := rl, n_l := nl, dR := dR, d2R := d2R }

/-- grid.cpp:25, construction of `_radial`: `Cheb` under `USE_CHEB`, else `FD` (grid.hpp:238-242). -/
def mkRadial (E : Env α) (nx : Nat) (Rmin Rmax : α) : Exec (Radial α) :=
  if E.useCheb then do
    let c ← Cheb.mk' nx Rmin Rmax (E.dct nx) (E.planOk nx) E.ndebug
    .ok (Radial.cheb c)
  else .ok (Radial.fd (FD.mk' nx Rmin Rmax E.ndebug))

/-- grid.cpp:7-25: the whole constructor, including the construction of `_sphere` (line 24) and of `_radial`
(line 25). -/
def ctor (E : Env α) (cl Rmin Rmax : α) (nx nl nm nlat nphi : Nat) : Exec (Grid α) := do
  let s ← Sphere.mk' nl nm nlat nphi (E.nspatAlloc nl nm nlat nphi) (E.sht nl nm nlat nphi) E.ndebug
  let r ← mkRadial E nx Rmin Rmax
  mk' ⟨nx, nl, nm, nlat, nphi, E.contig, E.ndebug⟩ cl Rmin Rmax s r

/-- grid.hpp:296-299 `R_to_r`. -/
def R_to_r (cl R : α) : α :=
  if lt (tenth 16) (fabs (R - cl)) then R / (1 - (R / cl)) else lit (10 ^ 12)

/-- grid.hpp:300-303 `R_th_ph(ix,it,ip)`. -/
def getR_th_ph (g : Grid α) (ix it ip : Nat) : Exec (P3 α) := rd g.R_th_ph (g.d.indx_R_th_ph ix it ip)

/-- `_nx*_nlat*_nphi` as in the assertions of grid.cpp. -/
def nTot (g : Grid α) : Nat := umul (umul g.d.nx g.d.nlat) g.d.nphi

/-- The shape shared by `set_partial_phi`, `set_spherical_lap`, `set_sphereX` (grid.cpp:103-155): for each shell, get
the row, apply the angular operator to it, set the row.  `std::vector<double> inter(n)` is zero-initialised.
`op k v out` is the angular operator on its `k`-th call. -/
def perShell (g : Grid α) (op : Nat → List α → List α → Exec (List α)) (v dv : List α) : Exec (List α) := do
  cassert g.d.ndebug (v.length == g.nTot)
  cassert g.d.ndebug (dv.length == g.nTot)
  forRange 0 g.d.nx dv fun ix dv => do
    let inter ← g.d.get_row_th_ph ix v (List.replicate (umul g.d.nlat g.d.nphi) 0)
    let interDv ← op ix inter (List.replicate (umul g.d.nlat g.d.nphi) 0)
    g.d.set_row_th_ph ix interDv dv

/-- grid.cpp:103-119 `set_partial_phi`. -/
def set_partial_phi (g : Grid α) (J : Junk (Cx α)) (v dv : List α) : Exec (List α) :=
  g.perShell (fun k => g.sphere.partial_phi (J.sub k)) v dv

/-- grid.cpp:121-137 `set_spherical_lap`. -/
def set_spherical_lap (g : Grid α) (J : Junk (Cx α)) (v ddv : List α) : Exec (List α) :=
  g.perShell (fun k => g.sphere.laplace_beltrami (J.sub k)) v ddv

/-- grid.cpp:139-155 `set_sphereX`. -/
def set_sphereX (g : Grid α) (J : Junk (Cx α)) (v vX : List α) : Exec (List α) :=
  g.perShell (fun k => g.sphere.sphereX (J.sub k)) v vX

/-- The shape shared by `set_partial_R`, `set_partial_r`, `set_partial2_r` (grid.cpp:157-230): for each angular
direction, get the radial line, apply the radial operator to it, set the line. -/
def perLine (g : Grid α) (op : List α → Exec (List α)) (v dv : List α) : Exec (List α) := do
  cassert g.d.ndebug (v.length == g.nTot)
  cassert g.d.ndebug (dv.length == g.nTot)
  forRange 0 g.d.nlat dv fun it dv => forRange 0 g.d.nphi dv fun ip dv => do
    let inter ← g.d.get_row_R it ip v (List.replicate g.d.nx 0)
    let interDv ← op inter
    g.d.set_row_R it ip interDv dv

/-- grid.cpp:157-175 `set_partial_R`. -/
def set_partial_R (g : Grid α) (v dv : List α) : Exec (List α) :=
  g.perLine (fun inter => g.radial.der inter (List.replicate g.d.nx 0)) v dv

/-- grid.cpp:187-193, the radial operator inside `set_partial_r`. -/
def opr (g : Grid α) (inter : List α) : Exec (List α) := do
  let dv ← g.radial.der inter (List.replicate g.d.nx 0)
  forRange 0 g.d.nx dv fun ix dv => do
    let x ← rd dv ix
    let j ← rd g.dR ix
    wr dv ix (x * j)

/-- grid.cpp:177-199 `set_partial_r`. -/
def set_partial_r (g : Grid α) (v dv : List α) : Exec (List α) := g.perLine g.opr v dv

/-- grid.cpp:213-226, the radial operator inside `set_partial2_r`. -/
def op2r (g : Grid α) (inter : List α) : Exec (List α) := do
  let (dv, ddv) ← g.radial.der12 inter (List.replicate g.d.nx 0) (List.replicate g.d.nx 0)
  forRange 0 g.d.nx ddv fun ix ddv => do
    let a ← rd g.d2R ix
    let b ← rd dv ix
    let c ← rd g.dR ix
    let e ← rd ddv ix
    wr ddv ix (a * b + pown c 2 * e)

/-- grid.cpp:201-230 `set_partial2_r`. -/
def set_partial2_r (g : Grid α) (v ddv : List α) : Exec (List α) := g.perLine g.op2r v ddv

/-- grid.cpp:232-248 `set_angular_power_spectrum`. -/
def set_angular_power_spectrum (g : Grid α) (J : Junk (Cx α)) (v p : List α) : Exec (List α) := do
  cassert g.d.ndebug (v.length == g.nTot)
  cassert g.d.ndebug (p.length == umul g.d.nx g.d.nl)
  forRange 0 g.d.nx p fun ix p => do
    let inter ← g.d.get_row_th_ph ix v (List.replicate (umul g.d.nlat g.d.nphi) 0)
    let interP ← g.sphere.power_spectrum (J.sub ix) inter (List.replicate g.d.nl 0)
    g.d.set_row_l ix interP p

/-- grid.cpp:251-274 `set_n_l_coef` (USE_CHEB build only). -/
def set_n_l_coef (g : Grid α) (c : Cheb α) (J : Junk (Cx α)) (v p : List α) : Exec (List α) := do
  cassert g.d.ndebug (v.length == g.nTot)
  cassert g.d.ndebug (p.length == umul g.d.nx g.d.nl)
  let p ← g.set_angular_power_spectrum J v p
  forRange 0 g.d.nl p fun il p => do
    let interV ← g.d.get_row_n il p (List.replicate g.d.nx 0)
    let interV ← forRange 0 g.d.nx interV fun ix w => do
      let x ← rd w ix
      wr w ix (rt x)
    let interP ← c.to_ch interV (List.replicate g.d.nx 0)
    g.d.set_row_n il interP p

/-- grid.cpp:284-290, first loop of `filter`: the angular filter on each shell, in place. -/
def filterShells (g : Grid α) (J : Junk (Cx α)) (v : List α) : Exec (List α) :=
  forRange 0 g.d.nx v fun ix v => do
    let inter ← g.d.get_row_th_ph ix v (List.replicate (umul g.d.nlat g.d.nphi) 0)
    let inter ← g.sphere.filter (J.sub ix) inter
    g.d.set_row_th_ph ix inter v

/-- grid.cpp:291-302, second loop of `filter`: gets each radial line, reads its two ends, sets the line back, and
then stores the ends into the local copy that is discarded.  (No radial filter is called.) -/
def filterLines (g : Grid α) (v : List α) : Exec (List α) :=
  forRange 0 g.d.nlat v fun it v => forRange 0 g.d.nphi v fun ip v => do
    let inter ← g.d.get_row_R it ip v (List.replicate g.d.nx 0)
    let lwr ← rd inter 0
    let upr ← rd inter (usub g.d.nx 1)
    let v ← g.d.set_row_R it ip inter v
    let inter ← wr inter 0 lwr
    let _ ← wr inter (usub g.d.nx 1) upr
    .ok v

/-- grid.cpp:280-303 `filter`, in place. -/
def filter (g : Grid α) (J : Junk (Cx α)) (v : List α) : Exec (List α) := do
  cassert g.d.ndebug (v.length == g.nTot)
  let v ← g.filterShells J v
  g.filterLines v

/-- grid.cpp:305-324 `norm_indep_res` with the reduction executed in index order. -/
def norm_indep_res (g : Grid α) (dt : α) (fn fnp1 p : List α) : Exec α := do
  cassert g.d.ndebug (fn.length == g.nTot)
  cassert g.d.ndebug (fnp1.length == g.nTot)
  cassert g.d.ndebug (p.length == g.nTot)
  let res ← forRange 0 g.nTot (0 : α) fun i res => do
    let x ← rd p i
    let b ← rd fnp1 i
    let a ← rd fn i
    .ok (res + pown (x - ((b - a) / dt)) 2)
  .ok (rt (res / dbl g.nTot))

/-- grid.cpp:326-354 `total_variation` with the reduction executed in index order. -/
def total_variation (g : Grid α) (v : List α) : Exec α := do
  cassert g.d.ndebug (v.length == g.nTot)
  let tv ← forRange 0 (usub g.d.nx 1) (0 : α) fun ix tv =>
    forRange 0 (usub g.d.nlat 1) tv fun it tv => forRange 0 (usub g.d.nphi 1) tv fun ip tv => do
      let c ← rd v (g.d.indx_R_th_ph ix it ip)
      let x ← rd v (g.d.indx_R_th_ph (ix + 1) it ip)
      let y ← rd v (g.d.indx_R_th_ph ix (it + 1) ip)
      let z ← rd v (g.d.indx_R_th_ph ix it (ip + 1))
      .ok (tv + rt (pown (x - c) 2 + pown (y - c) 2 + pown (z - c) 2))
  .ok (tv / dbl g.nTot)

/-- grid.cpp:96-99 `compute_ylm`. -/
def compute_ylm (g : Grid α) (J : Junk (Cx α)) (l m : Nat) : Exec (List α) := g.sphere.compute_ylm J l m

end Grid
end SFK
