import Verif.Model.Scalar
/-
Model of /repo/Source/sphere.hpp and /repo/Source/sphere.cpp.

The SHTns library is an external call: a record of functions.  What the library does is *not* modelled; which of its
properties a theorem needs is stated in that theorem (see Spec/Sphere.lean).
-/
namespace SFK
open Scalar

/-- Contents of freshly allocated, uninitialised buffers (`fftw_malloc`).  Indexed by the path of the allocation
in the execution, so that no two allocations have to hold the same garbage. -/
def Junk (β : Type) := List Nat → Nat → β

/-- The garbage seen by call number `k` of a function. -/
def Junk.sub {β : Type} (J : Junk β) (k : Nat) : Junk β := fun p => J (k :: p)

/-- The first garbage buffer of this call, `size` entries long. -/
def Junk.buf {β : Type} (J : Junk β) (k size : Nat) : List β := tab size (J [k])

/-- The part of `struct shtns_info` and of the SHTns API the code uses (shtns.h; sphere.cpp:20-40,57-58,74,78 and the
transform calls).  `spatToSH`..`shToSpatC` give the *output* as a function of the *input*; the four
`clobber` functions give what the library leaves in its input buffer (SHTns may use it as work space). -/
structure Shtns (α : Type) where
  lmax : Nat
  mmax : Nat
  nlm : Nat
  nspat : Nat
  nphi : Nat
  mres : Nat
  ct : List α
  spatToSH : List α → List (Cx α)
  shToSpat : List (Cx α) → List α
  spatToSHC : List (Cx α) → List (Cx α)
  shToSpatC : List (Cx α) → List (Cx α)
  clobR : List α → List α
  clobY : List (Cx α) → List (Cx α)

namespace Shtns
variable {α : Type}

/-- shtns.h macro `LM(shtns,l,m)` for `mres==1`: `((m)*(2*lmax+2-(m+1)))>>1 + l`.  Simplification: for `m>2*lmax+1`
the subtraction is truncated at 0 here and wraps in C; no caller with a valid `(l,m)` gets there. -/
def LM (s : Shtns α) (l m : Nat) : Nat := (m * (2 * s.lmax + 2 - (m + 1))) / 2 + l

/-- `pow(_lmax+1,2)` (sphere.cpp:153 etc.; the `double` result is exact below 2^26 and is used as a size). -/
def ncplx (s : Shtns α) : Nat := (s.lmax + 1) ^ 2

/-- Number of coefficients the complex transforms write and read, `nlm_cplx_calc(lmax,mmax,1)` of the library: each
degree holds only the orders `|m|≤min(l,mmax)` (shtns.h, macro `LM_cplx`).  The code allocates `ncplx` of them, which is
the same number only for `mmax=lmax`. -/
def ncp (s : Shtns α) : Nat := (s.mmax + 1) ^ 2 + (s.lmax - s.mmax) * (2 * s.mmax + 1)

/-- `spat_to_SH(_shtns, in, out)`: out-of-contract buffers are undefined behaviour.
Returns the new (input buffer, output buffer). -/
def callSpatToSH (s : Shtns α) (inp : List α) (out : List (Cx α)) : Exec (List α × List (Cx α)) :=
  if inp.length = s.nspat ∧ out.length = s.nlm then .ok (s.clobR inp, s.spatToSH inp) else .error .ub

/-- `SH_to_spat(_shtns, in, out)`. -/
def callSHToSpat (s : Shtns α) (inp : List (Cx α)) (out : List α) : Exec (List (Cx α) × List α) :=
  if inp.length = s.nlm ∧ out.length = s.nspat then .ok (s.clobY inp, s.shToSpat inp) else .error .ub

/-- `spat_cplx_to_SH(_shtns, in, out)`: writes the first `ncp` entries of `out` and leaves the others alone. -/
def callSpatToSHC (s : Shtns α) (inp out : List (Cx α)) : Exec (List (Cx α) × List (Cx α)) :=
  if inp.length = s.nspat ∧ s.ncp ≤ out.length then .ok (s.clobY inp, s.spatToSHC inp ++ out.drop s.ncp) else .error .ub

/-- `SH_to_spat_cplx(_shtns, in, out)`: reads the first `ncp` entries of `in`. -/
def callSHToSpatC (s : Shtns α) (inp out : List (Cx α)) : Exec (List (Cx α) × List (Cx α)) :=
  if s.ncp ≤ inp.length ∧ out.length = s.nspat then
    .ok (s.clobY (inp.take s.ncp) ++ inp.drop s.ncp, s.shToSpatC (inp.take s.ncp)) else .error .ub

end Shtns

namespace Cx
variable {α : Type} [Scalar α]

/-- `std::complex` times `double` (`z*=x`, `z*x`). -/
def smul (x : α) (z : Cx α) : Cx α := ⟨z.re * x, z.im * x⟩
/-- `double` times `std::complex` (`x*z`). -/
def smul' (x : α) (z : Cx α) : Cx α := ⟨x * z.re, x * z.im⟩
/-- `std::complex` product (the inf/NaN recovery of `__muldc3` is not modelled). -/
def mul (z w : Cx α) : Cx α := ⟨z.re * w.re - z.im * w.im, z.re * w.im + z.im * w.re⟩
/-- `cplx(x,0)` -/
def ofRe (x : α) : Cx α := ⟨x, 0⟩
end Cx

/-- `for (size_t i=0;i<n;i++) dst[i]=src[i];` -/
def copyLoop {β : Type} (n : Nat) (src dst : List β) : Exec (List β) :=
  forRange 0 n dst fun i dst => do
    let x ← rd src i
    wr dst i x

/-- The data members of class Sphere (sphere.hpp:69-92) plus the build flag `NDEBUG`. -/
structure Sphere (α : Type) where
  lmax : Nat
  mmax : Nat
  nlat : Nat
  nphi : Nat
  lap : List α
  lowPass : List α
  nSph : Nat
  nYlm : Nat
  sht : Shtns α
  ndebug : Bool

namespace Sphere
variable {α : Type} [Scalar α]

/-- sphere.cpp:48-50, the loop filling `_lap`. -/
def mkLap (lmax : Nat) : Exec (List α) :=
  forRange 0 lmax (List.replicate lmax (0 : α)) fun i v => wr v i (-(dbl i) * (dbl i + 1))

/-- sphere.cpp:54-56, the loop filling `_low_pass`. -/
def mkLow (lmax : Nat) : Exec (List α) :=
  forRange 0 lmax (List.replicate lmax (0 : α)) fun i v => wr v i (exp (-40 * pown (dbl i / dbl lmax) 16))

/-- sphere.cpp:7-60, the constructor.  `sht` is the configuration `shtns_create`/`shtns_set_grid` returned for
`nl,nm,nlat,nphi`; `nspatAlloc` is the return value of `shtns_set_grid`, compared with `NSPAT_ALLOC` (line 44). -/
def mk' (nl nm nlat nphi nspatAlloc : Nat) (sht : Shtns α) (ndebug : Bool) : Exec (Sphere α) := do
  cassert ndebug (sht.nspat == nspatAlloc)
  let lap ← mkLap nl
  let low ← mkLow nl
  .ok { lmax := nl, mmax := nm, nlat := nlat, nphi := nphi, lap := lap, lowPass := low,
        nSph := sht.nspat, nYlm := sht.nlm, sht := sht, ndebug := ndebug }

/-- sphere.cpp:72-75 `theta`. -/
def theta (s : Sphere α) (i : Nat) : Exec α := do
  let c ← rd s.sht.ct i
  .ok (acos c)

/-- sphere.cpp:76-79 `phi`. -/
def phi (s : Sphere α) (i : Nat) : α := dbl i * 2 * pi / dbl (s.sht.nphi * s.sht.mres)

/-- sphere.cpp:110-128 `to_Ylm` (real); returns the new content of `ylm`. -/
def to_Ylm (s : Sphere α) (J : Junk (Cx α)) (sph : List α) (ylm : List (Cx α)) : Exec (List (Cx α)) := do
  cassert s.ndebug (sph.length == s.nSph)
  cassert s.ndebug (ylm.length == s.nYlm)
  let sphTmp := (J.buf 0 s.nSph).map Cx.re
  let ylmTmp := J.buf 1 s.nYlm
  let sphTmp ← copyLoop s.nSph sph sphTmp
  let (_, ylmTmp) ← s.sht.callSpatToSH sphTmp ylmTmp
  copyLoop s.nYlm ylmTmp ylm

/-- sphere.cpp:130-148 `to_Sph` (real); returns the new content of `sph`. -/
def to_Sph (s : Sphere α) (J : Junk (Cx α)) (ylm : List (Cx α)) (sph : List α) : Exec (List α) := do
  cassert s.ndebug (sph.length == s.nSph)
  cassert s.ndebug (ylm.length == s.nYlm)
  let sphTmp := (J.buf 0 s.nSph).map Cx.re
  let ylmTmp := J.buf 1 s.nYlm
  let ylmTmp ← copyLoop s.nYlm ylm ylmTmp
  let (_, sphTmp) ← s.sht.callSHToSpat ylmTmp sphTmp
  copyLoop s.nSph sphTmp sph

/-- sphere.cpp:150-168 `to_Ylm` (complex). -/
def to_YlmC (s : Sphere α) (J : Junk (Cx α)) (sph ylm : List (Cx α)) : Exec (List (Cx α)) := do
  cassert s.ndebug (sph.length == s.nSph)
  cassert s.ndebug (ylm.length == (s.lmax + 1) ^ 2)
  let sphTmp := J.buf 0 s.nSph
  let ylmTmp := J.buf 1 ((s.lmax + 1) ^ 2)
  let sphTmp ← copyLoop s.nSph sph sphTmp
  let (_, ylmTmp) ← s.sht.callSpatToSHC sphTmp ylmTmp
  copyLoop ((s.lmax + 1) ^ 2) ylmTmp ylm

/-- sphere.cpp:170-188 `to_Sph` (complex). -/
def to_SphC (s : Sphere α) (J : Junk (Cx α)) (ylm sph : List (Cx α)) : Exec (List (Cx α)) := do
  cassert s.ndebug (sph.length == s.nSph)
  cassert s.ndebug (ylm.length == (s.lmax + 1) ^ 2)
  let sphTmp := J.buf 0 s.nSph
  let ylmTmp := J.buf 1 ((s.lmax + 1) ^ 2)
  let ylmTmp ← copyLoop ((s.lmax + 1) ^ 2) ylm ylmTmp
  let (_, sphTmp) ← s.sht.callSHToSpatC ylmTmp sphTmp
  copyLoop s.nSph sphTmp sph

/-- The loop nest shared by sphere.cpp:205-209, 236-240, 357-361:
`for l<_lmax, m<std::min(l+1,_mmax): Ylm_tmp[LM(l,m)] = g(l,m,Ylm_tmp[LM(l,m)])`. -/
def scaleLoop (s : Sphere α) (g : Nat → Nat → Cx α → Exec (Cx α)) (y : List (Cx α)) : Exec (List (Cx α)) :=
  forRange 0 s.lmax y fun l y => forRange 0 (min (l + 1) s.mmax) y fun m y => do
    let z ← rd y (s.sht.LM l m)
    let z' ← g l m z
    wr y (s.sht.LM l m) z'

/-- The shape shared by `laplace_beltrami`, `partial_phi` and `filter`: copy in, analyse, scale, synthesise, copy out
(sphere.cpp:194-216, 223-247, 349-368; the assertions come before or after the allocations, which makes no
difference). -/
def throughYlm (s : Sphere α) (J : Junk (Cx α)) (g : Nat → Nat → Cx α → Exec (Cx α)) (v out : List α) :
    Exec (List α) := do
  cassert s.ndebug (v.length == s.nSph)
  cassert s.ndebug (out.length == s.nSph)
  let sphTmp := (J.buf 0 s.nSph).map Cx.re
  let ylmTmp := J.buf 1 s.nYlm
  let sphTmp ← copyLoop s.nSph v sphTmp
  let (sphTmp, ylmTmp) ← s.sht.callSpatToSH sphTmp ylmTmp
  let ylmTmp ← s.scaleLoop g ylmTmp
  let (_, sphTmp) ← s.sht.callSHToSpat ylmTmp sphTmp
  copyLoop s.nSph sphTmp out

/-- sphere.cpp:190-217 `laplace_beltrami`; line 207: `*= _lap[l]`. -/
def laplace_beltrami (s : Sphere α) (J : Junk (Cx α)) (v ddv : List α) : Exec (List α) :=
  s.throughYlm J (fun l _ z => do let x ← rd s.lap l; .ok (Cx.smul x z)) v ddv

/-- sphere.cpp:221-248 `partial_phi`; line 238: `*= img*cplx(m)`. -/
def partial_phi (s : Sphere α) (J : Junk (Cx α)) (v dv : List α) : Exec (List α) :=
  s.throughYlm J (fun _ m z => .ok (Cx.mul z (Cx.mul ⟨0, 1⟩ ⟨dbl m, 0⟩))) v dv

/-- sphere.cpp:345-369 `filter`, in place; line 359: `*= _low_pass[l]*_low_pass[m]`. -/
def filter (s : Sphere α) (J : Junk (Cx α)) (v : List α) : Exec (List α) :=
  s.throughYlm J
    (fun l m z => do let x ← rd s.lowPass l; let y ← rd s.lowPass m; .ok (Cx.smul (x * y) z)) v v

/-- `int m` converted to `size_t`. -/
def toU (m : Int) : Nat := (m % (W : Int)).toNat

/-- `l*(l+1)+m` with `size_t l` and `int m` (sphere.cpp:270,304). -/
def cidx (l : Nat) (m : Int) : Nat := uadd (umul l (uadd l 1)) (toU m)

/-- sphere.cpp:268-273, body of the loop over `l` of `raise`; the inner loop runs `m=l, l-1, ..., -l+1`
(`j` is the number of completed iterations, `m=l-j`). -/
def raiseLoop (s : Sphere α) (y : List (Cx α)) : Exec (List (Cx α)) :=
  forRange 0 s.lmax y fun l y => do
    let y ← forRange 0 (2 * l) y fun j y => do
      let m : Int := (l : Int) - j
      let z ← rd y (cidx l (m - 1))
      let c : α := rt (dbl (umul (uadd (usub l (toU m)) 1) (uadd l (toU m))))
      wr y (cidx l m) (Cx.smul' c z)
    wr y (uadd (umul l (uadd l 1)) (usub 0 l)) ⟨0, 0⟩

/-- sphere.cpp:302-307, body of the loop over `l` of `lower`; the inner loop runs `m=-l, ..., l-1` (`m=-l+j`). -/
def lowerLoop (s : Sphere α) (y : List (Cx α)) : Exec (List (Cx α)) :=
  forRange 0 s.lmax y fun l y => do
    let y ← forRange 0 (2 * l) y fun j y => do
      let m : Int := -(l : Int) + j
      let z ← rd y (cidx l (m + 1))
      let c : α := rt (dbl (umul (uadd (uadd l (toU m)) 1) (usub l (toU m))))
      wr y (cidx l m) (Cx.smul' c z)
    wr y (uadd (umul l (uadd l 1)) l) ⟨0, 0⟩

/-- The shape shared by `raise` and `lower` (sphere.cpp:258-280, 291-314). -/
def throughYlmC (s : Sphere α) (J : Junk (Cx α)) (loop : List (Cx α) → Exec (List (Cx α)))
    (v : List α) (out : List (Cx α)) : Exec (List (Cx α)) := do
  cassert s.ndebug (v.length == s.nSph)
  cassert s.ndebug (out.length == s.nSph)
  let sphTmp := J.buf 0 s.nSph
  let ylmTmp := J.buf 1 ((s.lmax + 1) ^ 2)
  let sphTmp ← forRange 0 s.nSph sphTmp fun i t => do
    let x ← rd v i
    wr t i (Cx.ofRe x)
  let (sphTmp, ylmTmp) ← s.sht.callSpatToSHC sphTmp ylmTmp
  let ylmTmp ← loop ylmTmp
  let (_, sphTmp) ← s.sht.callSHToSpatC ylmTmp sphTmp
  copyLoop s.nSph sphTmp out

/-- sphere.cpp:256-281 `raise`. -/
def raise (s : Sphere α) (J : Junk (Cx α)) (v : List α) (rv : List (Cx α)) : Exec (List (Cx α)) :=
  s.throughYlmC J s.raiseLoop v rv

/-- sphere.cpp:289-315 `lower`. -/
def lower (s : Sphere α) (J : Junk (Cx α)) (v : List α) (lv : List (Cx α)) : Exec (List (Cx α)) :=
  s.throughYlmC J s.lowerLoop v lv

/-- sphere.cpp:322-339 `sphereX`. -/
def sphereX (s : Sphere α) (J : Junk (Cx α)) (v vX : List α) : Exec (List α) := do
  cassert s.ndebug (v.length == s.nSph)
  cassert s.ndebug (vX.length == s.nSph)
  let raiseV ← s.raise (J.sub 0) v (List.replicate s.nSph ⟨0, 0⟩)
  let lowerV ← s.lower (J.sub 1) v (List.replicate s.nSph ⟨0, 0⟩)
  let phiV ← s.partial_phi (J.sub 2) v (List.replicate s.nSph 0)
  forRange 0 s.nSph vX fun i vX => do
    let a ← rd raiseV i
    let b ← rd lowerV i
    let c ← rd phiV i
    wr vX i (-(Cx.mul a b).re + pown c 2)

/-- sphere.cpp:384-400, the double loop of `power_spectrum`. -/
def powerLoop (s : Sphere α) (y : List (Cx α)) (p : List α) : Exec (List α) :=
  forRange 0 s.lmax p fun l p => do
    let z ← rd y (s.sht.LM l 0)
    let p ← wr p l (pown z.re 2 + pown z.im 2)
    forRange 1 (min (l + 1) s.mmax) p fun m p => do
      let z ← rd y (s.sht.LM l m)
      let old ← rd p l
      wr p l (old + 2 * (pown z.re 2 + pown z.im 2))

/-- sphere.cpp:371-403 `power_spectrum`. -/
def power_spectrum (s : Sphere α) (J : Junk (Cx α)) (v p : List α) : Exec (List α) := do
  cassert s.ndebug (v.length == s.nSph)
  cassert s.ndebug (p.length == s.lmax)
  let sphTmp := (J.buf 0 s.nSph).map Cx.re
  let ylmTmp := J.buf 1 s.nYlm
  let sphTmp ← copyLoop s.nSph v sphTmp
  let (_, ylmTmp) ← s.sht.callSpatToSH sphTmp ylmTmp
  s.powerLoop ylmTmp p

/-- sphere.cpp:407-417 `compute_ylm`. -/
def compute_ylm (s : Sphere α) (J : Junk (Cx α)) (l m : Nat) : Exec (List α) := do
  let inp ← wr (List.replicate s.nYlm (⟨0, 0⟩ : Cx α)) (s.sht.LM l m) ⟨1, 0⟩
  s.to_Sph J inp (List.replicate s.nSph 0)

end Sphere
end SFK
