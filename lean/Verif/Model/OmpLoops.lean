import Verif.Model.Omp
import Verif.Model.ScalarEom
/-
The functions of /repo/Source that contain OpenMP pragmas (grid.cpp, scalar_eom.cpp, field.cpp), with every access to a shared
vector spelled out as a separate load or store.  Vectors declared inside an iteration (`inter`, `inter_dv`, …) and the buffers the
Sphere and Cheb functions allocate are private; the members read by the private computations (`_lap`, `_low_pass`, `_dR_over_dr`,
coefficient arrays, SHTns and FFTW plans) are written by nobody after construction, so reading them is not a shared access here.
Calls of SHTns and FFTW on private buffers are taken to be thread-safe.
-/
namespace SFK
open Scalar

section
variable {ι α : Type} [DecidableEq ι]

namespace Dims
variable (d : Dims)

/-- grid.hpp:56-65 `get_row_R` from the shared vector `a` into a private one. -/
def get_row_R_T (it ip : Nat) (a : ι) (out : List α) : ThM ι α (List α) := do
  let s ← ThM.size a
  ThM.lift (cassert d.ndebug (s == d.nFull))
  ThM.lift (cassert d.ndebug (out.length == d.nx))
  ThM.forT 0 d.nx out fun ix out => do
    let x ← ThM.load a (d.indx_R_th_ph ix it ip)
    ThM.lift (wr out ix x)

/-- grid.hpp:66-75 `set_row_R` from a private vector into the shared vector `a`. -/
def set_row_R_T (it ip : Nat) (inp : List α) (a : ι) : ThM ι α Unit := do
  ThM.lift (cassert d.ndebug (inp.length == d.nx))
  let s ← ThM.size a
  ThM.lift (cassert d.ndebug (s == d.nFull))
  ThM.forT 0 d.nx () fun ix _ => do
    let x ← ThM.lift (rd inp ix)
    ThM.store a (d.indx_R_th_ph ix it ip) x

/-- grid.hpp:190-201 `get_row_th_ph`. -/
def get_row_th_ph_T (ix : Nat) (a : ι) (out : List α) : ThM ι α (List α) := do
  let s ← ThM.size a
  ThM.lift (cassert d.ndebug (s == d.nFull))
  ThM.lift (cassert d.ndebug (out.length == umul d.nphi d.nlat))
  ThM.forT 0 d.nlat out fun it out => ThM.forT 0 d.nphi out fun ip out => do
    let x ← ThM.load a (d.indx_R_th_ph ix it ip)
    ThM.lift (wr out (d.indx_th_ph it ip) x)

/-- grid.hpp:202-214 `set_row_th_ph`. -/
def set_row_th_ph_T (ix : Nat) (inp : List α) (a : ι) : ThM ι α Unit := do
  ThM.lift (cassert d.ndebug (inp.length == umul d.nphi d.nlat))
  let s ← ThM.size a
  ThM.lift (cassert d.ndebug (s == d.nFull))
  ThM.forT 0 d.nlat () fun it _ => ThM.forT 0 d.nphi () fun ip _ => do
    let x ← ThM.lift (rd inp (d.indx_th_ph it ip))
    ThM.store a (d.indx_R_th_ph ix it ip) x

/-- grid.hpp:216-225 `set_row_l`. -/
def set_row_l_T (ix : Nat) (lvals : List α) (a : ι) : ThM ι α Unit := do
  ThM.lift (cassert d.ndebug (lvals.length == d.nl))
  let s ← ThM.size a
  ThM.lift (cassert d.ndebug (s == umul d.nx d.nl))
  ThM.forT 0 d.nl () fun il _ => do
    let x ← ThM.lift (rd lvals il)
    ThM.store a (d.indx_r_l ix il) x

/-- grid.hpp:119-128 `get_row_n`. -/
def get_row_n_T (il : Nat) (a : ι) (out : List α) : ThM ι α (List α) := do
  let s ← ThM.size a
  ThM.lift (cassert d.ndebug (s == umul d.nx d.nl))
  ThM.lift (cassert d.ndebug (out.length == d.nx))
  ThM.forT 0 d.nx out fun ix out => do
    let x ← ThM.load a (d.indx_r_l ix il)
    ThM.lift (wr out ix x)

/-- grid.hpp:129-138 `set_row_n`. -/
def set_row_n_T (il : Nat) (inp : List α) (a : ι) : ThM ι α Unit := do
  ThM.lift (cassert d.ndebug (inp.length == d.nx))
  let s ← ThM.size a
  ThM.lift (cassert d.ndebug (s == umul d.nx d.nl))
  ThM.forT 0 d.nx () fun ix _ => do
    let x ← ThM.lift (rd inp ix)
    ThM.store a (d.indx_r_l ix il) x

end Dims

namespace Grid
variable [Scalar α] (g : Grid α)

/-- grid.cpp:103-155, the common shape of `set_partial_phi`, `set_spherical_lap`, `set_sphereX` (see `Grid.perShell`): the loop over
shells is `#pragma omp parallel for` (lines 108, 126, 144). -/
def perShell_T (op : Nat → List α → List α → Exec (List α)) (v dv : ι) : ThM ι α Unit := do
  let s ← ThM.size v
  ThM.lift (cassert g.d.ndebug (s == g.nTot))
  let s ← ThM.size dv
  ThM.lift (cassert g.d.ndebug (s == g.nTot))
  ThM.parFor g.d.nx fun ix => do
    let inter ← g.d.get_row_th_ph_T ix v (List.replicate (umul g.d.nlat g.d.nphi) 0)
    let interDv ← ThM.lift (op ix inter (List.replicate (umul g.d.nlat g.d.nphi) 0))
    g.d.set_row_th_ph_T ix interDv dv

/-- grid.cpp:103-119 `set_partial_phi`. -/
def set_partial_phi_T (J : Junk (Cx α)) (v dv : ι) : ThM ι α Unit := g.perShell_T (fun k => g.sphere.partial_phi (J.sub k)) v dv
/-- grid.cpp:121-137 `set_spherical_lap`. -/
def set_spherical_lap_T (J : Junk (Cx α)) (v dv : ι) : ThM ι α Unit := g.perShell_T (fun k => g.sphere.laplace_beltrami (J.sub k)) v dv
/-- grid.cpp:139-155 `set_sphereX`. -/
def set_sphereX_T (J : Junk (Cx α)) (v dv : ι) : ThM ι α Unit := g.perShell_T (fun k => g.sphere.sphereX (J.sub k)) v dv

/-- grid.cpp:157-230, the common shape of `set_partial_R`, `set_partial_r`, `set_partial2_r`: the loop over the latitude `it` is
`#pragma omp parallel for` (lines 162, 182, 206), the loop over `ip` inside it is sequential. -/
def perLine_T (op : List α → Exec (List α)) (v dv : ι) : ThM ι α Unit := do
  let s ← ThM.size v
  ThM.lift (cassert g.d.ndebug (s == g.nTot))
  let s ← ThM.size dv
  ThM.lift (cassert g.d.ndebug (s == g.nTot))
  ThM.parFor g.d.nlat fun it => ThM.forT 0 g.d.nphi () fun ip _ => do
    let inter ← g.d.get_row_R_T it ip v (List.replicate g.d.nx 0)
    let interDv ← ThM.lift (op inter)
    g.d.set_row_R_T it ip interDv dv

/-- grid.cpp:157-175 `set_partial_R`. -/
def set_partial_R_T (v dv : ι) : ThM ι α Unit := g.perLine_T (fun inter => g.radial.der inter (List.replicate g.d.nx 0)) v dv
/-- grid.cpp:177-199 `set_partial_r`. -/
def set_partial_r_T (v dv : ι) : ThM ι α Unit := g.perLine_T g.opr v dv
/-- grid.cpp:201-230 `set_partial2_r`. -/
def set_partial2_r_T (v ddv : ι) : ThM ι α Unit := g.perLine_T g.op2r v ddv

/-- grid.cpp:232-248 `set_angular_power_spectrum` (pragma at line 237). -/
def set_angular_power_spectrum_T (J : Junk (Cx α)) (v p : ι) : ThM ι α Unit := do
  let s ← ThM.size v
  ThM.lift (cassert g.d.ndebug (s == g.nTot))
  let s ← ThM.size p
  ThM.lift (cassert g.d.ndebug (s == umul g.d.nx g.d.nl))
  ThM.parFor g.d.nx fun ix => do
    let inter ← g.d.get_row_th_ph_T ix v (List.replicate (umul g.d.nlat g.d.nphi) 0)
    let interP ← ThM.lift (g.sphere.power_spectrum (J.sub ix) inter (List.replicate g.d.nl 0))
    g.d.set_row_l_T ix interP p

/-- grid.cpp:251-274 `set_n_l_coef` (USE_CHEB build; pragma at line 258): the spectrum, then each column in place. -/
def set_n_l_coef_T (c : Cheb α) (J : Junk (Cx α)) (v p : ι) : ThM ι α Unit := do
  let s ← ThM.size v
  ThM.lift (cassert g.d.ndebug (s == g.nTot))
  let s ← ThM.size p
  ThM.lift (cassert g.d.ndebug (s == umul g.d.nx g.d.nl))
  g.set_angular_power_spectrum_T J v p
  ThM.parFor g.d.nl fun il => do
    let interV ← g.d.get_row_n_T il p (List.replicate g.d.nx 0)
    let interV ← ThM.lift (forRange 0 g.d.nx interV fun ix w => do
      let x ← rd w ix
      wr w ix (rt x))
    let interP ← ThM.lift (c.to_ch interV (List.replicate g.d.nx 0))
    g.d.set_row_n_T il interP p

/-- grid.cpp:280-303 `filter`, in place: two parallel loops (pragmas at lines 284 and 291). -/
def filter_T (J : Junk (Cx α)) (v : ι) : ThM ι α Unit := do
  let s ← ThM.size v
  ThM.lift (cassert g.d.ndebug (s == g.nTot))
  ThM.parFor g.d.nx fun ix => do
    let inter ← g.d.get_row_th_ph_T ix v (List.replicate (umul g.d.nlat g.d.nphi) 0)
    let inter ← ThM.lift (g.sphere.filter (J.sub ix) inter)
    g.d.set_row_th_ph_T ix inter v
  ThM.parFor g.d.nlat fun it => ThM.forT 0 g.d.nphi () fun ip _ => do
    let inter ← g.d.get_row_R_T it ip v (List.replicate g.d.nx 0)
    let lwr ← ThM.lift (rd inter 0)
    let upr ← ThM.lift (rd inter (usub g.d.nx 1))
    g.d.set_row_R_T it ip inter v
    let inter ← ThM.lift (wr inter 0 lwr)
    let _ ← ThM.lift (wr inter (usub g.d.nx 1) upr)
    pure ()

end Grid

/-- grid.cpp:305-320 `norm_indep_res` up to the end of the parallel loop (pragma at line 317): the private copies of `res`. -/
def Grid.norm_indep_res_privates [Scalar α] (g : Grid α) (dt : α) (fn fnp1 p : List α) (ts : List (List Nat)) : Exec (List α) := do
  cassert g.d.ndebug (fn.length == g.nTot)
  cassert g.d.ndebug (fnp1.length == g.nTot)
  cassert g.d.ndebug (p.length == g.nTot)
  privates (fun i res => do
    let x ← rd p i
    let b ← rd fnp1 i
    let a ← rd fn i
    .ok (res + pown (x - ((b - a) / dt)) 2)) ts
/-- grid.cpp:321-323: the rest of `norm_indep_res`, `res` being the combination of 0 and the private copies. -/
def Grid.norm_indep_res_final [Scalar α] (g : Grid α) (res : α) : α := rt (res / dbl g.nTot)

/-- grid.cpp:326-352 `total_variation` up to the end of the parallel loop (pragma at line 331; only the loop over `ix` is distributed). -/
def Grid.total_variation_privates [Scalar α] (g : Grid α) (v : List α) (ts : List (List Nat)) : Exec (List α) := do
  cassert g.d.ndebug (v.length == g.nTot)
  privates (fun ix tv => forRange 0 (usub g.d.nlat 1) tv fun it tv => forRange 0 (usub g.d.nphi 1) tv fun ip tv => do
      let c ← rd v (g.d.indx_R_th_ph ix it ip)
      let x ← rd v (g.d.indx_R_th_ph (ix + 1) it ip)
      let y ← rd v (g.d.indx_R_th_ph ix (it + 1) ip)
      let z ← rd v (g.d.indx_R_th_ph ix it (ip + 1))
      .ok (tv + rt (pown (x - c) 2 + pown (y - c) 2 + pown (z - c) 2))) ts
/-- grid.cpp:353: the rest of `total_variation`. -/
def Grid.total_variation_final [Scalar α] (g : Grid α) (tv : α) : α := tv / dbl g.nTot

/-- field.cpp:25-31 `shift` (pragma at line 27) on the shared vectors `n` and `np1`. -/
def shift_T (size : Nat) (n np1 : ι) : ThM ι α Unit :=
  ThM.parFor size fun i => do
    let x ← ThM.load np1 i
    ThM.store n i x

end

/-- The vectors shared by the threads of `Scalar_eom`: those of the two fields (field.hpp), the work arrays of scalar_eom.cpp:41-47 and
the density array of main.cpp. -/
inductive Arr where
  | fn | fl | fnp1 | fk | pn | pl | pnp1 | pk | dr_f | lap_f | dr_p | dr_dr_f | dphi_f | dphi_dr_f | sphereX_f | rho
deriving DecidableEq

namespace Eom
open Arr
variable {α : Type} [Scalar α] (e : Eom α)

/-- The shared memory when the program state is: fields `f`, `p` (field.hpp), work arrays `s` (scalar_eom.cpp:41-47), density `rh` (main.cpp:25). -/
def memOf (s : Scratch α) (f p : Field α) (rh : List α) : Mem Arr α
  | fn => f.n | fl => f.l | fnp1 => f.np1 | fk => f.k
  | pn => p.n | pl => p.l | pnp1 => p.np1 | .pk => p.k
  | dr_f => s.dr_f | lap_f => s.lap_f | dr_p => s.dr_p | dr_dr_f => s.dr_dr_f | dphi_f => s.dphi_f
  | dphi_dr_f => s.dphi_dr_f | sphereX_f => s.sphereX_f | rho => rh

/-- scalar_eom.cpp:219-270 `set_level`: each branch is one parallel loop (pragmas at lines 225, 232, 242, 252, 262). -/
def set_level_T (level : Int) : ThM Arr α Unit :=
  if level = 1 then ThM.parFor e.n fun i => do
    let x ← ThM.load fn i
    ThM.store fl i x
    let x ← ThM.load pn i
    ThM.store pl i x
  else if level = 2 then ThM.parFor e.n fun i => do
    let x ← ThM.load fn i
    let y ← ThM.load fk i
    ThM.store fl i (x + lit (1/2) * e.dt * y)
    let x ← ThM.load pn i
    let y ← ThM.load .pk i
    ThM.store pl i (x + lit (1/2) * e.dt * y)
    let x ← ThM.load fn i
    let y ← ThM.load fk i
    ThM.store fnp1 i (x + (e.dt / 6) * y)
    let x ← ThM.load pn i
    let y ← ThM.load .pk i
    ThM.store pnp1 i (x + (e.dt / 6) * y)
  else if level = 3 then ThM.parFor e.n fun i => do
    let x ← ThM.load fn i
    let y ← ThM.load fk i
    ThM.store fl i (x + lit (1/2) * e.dt * y)
    let x ← ThM.load pn i
    let y ← ThM.load .pk i
    ThM.store pl i (x + lit (1/2) * e.dt * y)
    let y ← ThM.load fk i
    let x ← ThM.load fnp1 i
    ThM.store fnp1 i (x + (e.dt / 3) * y)
    let y ← ThM.load .pk i
    let x ← ThM.load pnp1 i
    ThM.store pnp1 i (x + (e.dt / 3) * y)
  else if level = 4 then ThM.parFor e.n fun i => do
    let x ← ThM.load fn i
    let y ← ThM.load fk i
    ThM.store fl i (x + e.dt * y)
    let x ← ThM.load pn i
    let y ← ThM.load .pk i
    ThM.store pl i (x + e.dt * y)
    let y ← ThM.load fk i
    let x ← ThM.load fnp1 i
    ThM.store fnp1 i (x + (e.dt / 3) * y)
    let y ← ThM.load .pk i
    let x ← ThM.load pnp1 i
    ThM.store pnp1 i (x + (e.dt / 3) * y)
  else if level = 5 then ThM.parFor e.n fun i => do
    let y ← ThM.load fk i
    let x ← ThM.load fnp1 i
    ThM.store fnp1 i (x + (e.dt / 6) * y)
    let y ← ThM.load .pk i
    let x ← ThM.load pnp1 i
    ThM.store pnp1 i (x + (e.dt / 6) * y)
  else pure ()

/-- scalar_eom.cpp:144-172, the six parallel sections of `set_k`. -/
def sections_T (g : Grid α) (J : Junk (Cx α)) (f p : Arr) : ThM Arr α Unit := ThM.sections [
  g.set_partial_r_T f dr_f,
  g.set_partial_r_T p dr_p,
  g.set_partial2_r_T f dr_dr_f,
  (do g.set_partial_phi_T (J.sub 0) f dphi_f
      g.set_partial_r_T dphi_f dphi_dr_f),
  g.set_sphereX_T (J.sub 1) f sphereX_f,
  g.set_spherical_lap_T (J.sub 2) f lap_f]

/-- scalar_eom.cpp:132-217 `set_k`, as called by `time_step`: from `f.l, p.l` into `f.k, p.k`.  The pointwise loop (line 173) is
sequential. -/
def set_k_T (g : Grid α) (J : Junk (Cx α)) : ThM Arr α Unit := do
  let s ← ThM.size fl
  ThM.lift (cassert e.ndebug (s == e.n))
  let s ← ThM.size pl
  ThM.lift (cassert e.ndebug (s == e.n))
  let s ← ThM.size fk
  ThM.lift (cassert e.ndebug (s == e.n))
  let s ← ThM.size .pk
  ThM.lift (cassert e.ndebug (s == e.n))
  sections_T g J fl pl
  ThM.forT 0 e.n () fun i _ => do
    let fi ← ThM.load fl i
    let pi ← ThM.load pl i
    let c ← ThM.lift (rd e.coef i)
    let a ← ThM.load dr_f i
    let b ← ThM.load dr_p i
    let c2 ← ThM.load dr_dr_f i
    let q ← ThM.load dphi_f i
    let d ← ThM.load dphi_dr_f i
    let x ← ThM.load sphereX_f i
    let l ← ThM.load lap_f i
    ThM.store fk i pi
    ThM.store .pk i (e.pk c fi pi a b c2 q d x l)

/-- scalar_eom.cpp:275-304 `time_step`; `fsize`, `psize` are the members `size` of the two fields. -/
def time_step_T (g : Grid α) (J : Junk (Cx α)) (fsize psize : Nat) : ThM Arr α Unit := do
  ThM.lift (cassert e.ndebug (fsize == e.n))
  ThM.lift (cassert e.ndebug (psize == e.n))
  ThM.sections [g.filter_T (J.sub 0) fn, g.filter_T (J.sub 1) pn]
  e.set_level_T 1
  e.set_k_T g (J.sub 2)
  e.set_level_T 2
  e.set_k_T g (J.sub 3)
  e.set_level_T 3
  e.set_k_T g (J.sub 4)
  e.set_level_T 4
  e.set_k_T g (J.sub 5)
  e.set_level_T 5

/-- scalar_eom.cpp:306-356 `set_rho` as called by main.cpp: from `f.np1, p.np1` into the density array; three parallel sections
(line 317), then a sequential loop (line 332). -/
def set_rho_T (g : Grid α) (J : Junk (Cx α)) : ThM Arr α Unit := do
  let s ← ThM.size fnp1
  ThM.lift (cassert e.ndebug (s == e.n))
  let s ← ThM.size pnp1
  ThM.lift (cassert e.ndebug (s == e.n))
  let s ← ThM.size rho
  ThM.lift (cassert e.ndebug (s == e.n))
  ThM.sections [
    g.set_partial_r_T fnp1 dr_f,
    g.set_partial_phi_T (J.sub 0) fnp1 dphi_f,
    g.set_sphereX_T (J.sub 1) fnp1 sphereX_f]
  ThM.forT 0 e.n () fun i _ => do
    let fi ← ThM.load fnp1 i
    let pi ← ThM.load pnp1 i
    let c ← ThM.lift (rd e.coef i)
    let a ← ThM.load dr_f i
    let q ← ThM.load dphi_f i
    let x ← ThM.load sphereX_f i
    ThM.store rho i (e.rhoVal c fi pi a q x)

end Eom
end SFK
